import Verif.Lemmas.FileConc
import Verif.Lemmas.FileConcLocks
import Verif.Lemmas.PieceOrder
import Verif.Props.FileIO
/-
Property C74: concurrent calls of ReadPiece and WritePiece.
-/
set_option autoImplicit false

namespace Verif.FileConc
open Verif.Files Verif.FS Verif.FileIO Verif.Layout Verif.Lts

/-- one of the calls writes `d`, which has the recorded hash, to piece `i` -/
def IsWrite (H : Bytes → Bytes) (hashes : Bytes) (np : Nat) (calls : List Call) (i : Nat) (d : Bytes) : Prop :=
  i < np ∧ H d = range hashes (20 * i) 20 ∧ ∃ spare, Call.write i d spare ∈ calls

/-- `v` is what one of these writes puts at position `b` of the concatenated files -/
def Written (H : Bytes → Bytes) (hashes : Bytes) (np pl : Nat) (calls : List Call) (b : Nat) (v : UInt8) : Prop :=
  ∃ i d, IsWrite H hashes np calls i d ∧ i * pl ≤ b ∧ d[b - i * pl]? = some v

/-- data with the recorded hash has the size of the piece (unless there is a collision), buffers have room for the piece -/
structure Sized (H : Bytes → Bytes) (hashes : Bytes) (np pl : Nat) (stream : Bytes) (calls : List Call) : Prop where
  write : ∀ i d, IsWrite H hashes np calls i d → d.length = (pieceOf stream pl i).length
  read : ∀ (i : Nat) buf, Call.read i buf ∈ calls → i < np → (pieceOf stream pl i).length ≤ buf.length

/-- what is known about a goroutine in terms of its call -/
inductive TInv (H : Bytes → Bytes) (hashes : Bytes) (np pl : Nat) (files : List EntryBase) (stream : Bytes) (calls : List Call) (faulty : Bool)
    (cs : List Bytes) : Call → Th → Prop
  | badRead (i : Int) (buf : Bytes) (t : Th) (e : Err) (hpc : t.pc = .done (.err e)) (hi : ∀ k : Nat, k < np → i ≠ k) :
      TInv H hashes np pl files stream calls faulty cs (.read i buf) t
  | badWrite (i : Int) (d spare : Bytes) (t : Th) (e : Err) (hpc : t.pc = .done (.err e))
      (hi : ∀ k : Nat, k < np → i = k → H d ≠ range hashes (20 * k) 20) :
      TInv H hashes np pl files stream calls faulty cs (.write i d spare) t
  | read (i : Nat) (buf : Bytes) (t : Th) (hi : i < np) (hw : t.write = false)
      (pos : Pos (Files.lens files) (i * pl) (pieceOf stream pl i).length t)
      (rest : t.buf.drop (pieceOf stream pl i).length = buf.drop (pieceOf stream pl i).length)
      (noErr : faulty = false → ∀ e, t.pc ≠ .done (.err e))
      (got : ∀ o < prog t, ∃ v, t.buf[o]? = some v ∧ (stream[i * pl + o]? = some v ∨ Written H hashes np pl calls (i * pl + o) v)) :
      TInv H hashes np pl files stream calls faulty cs (.read i buf) t
  | write (i : Nat) (d spare : Bytes) (t : Th) (hi : IsWrite H hashes np calls i d) (hw : t.write = true)
      (pos : Pos (Files.lens files) (i * pl) (pieceOf stream pl i).length t) (data : t.buf = d ++ spare)
      (noErr : faulty = false → ∀ e, t.pc ≠ .done (.err e))
      (put : ∀ o < prog t, ∃ v, cs.flatten[i * pl + o]? = some v ∧ Written H hashes np pl calls (i * pl + o) v) :
      TInv H hashes np pl files stream calls faulty cs (.write i d spare) t

structure GInv (H : Bytes → Bytes) (hashes : Bytes) (pl : Nat) (files : List EntryBase) (ti : TorInfo) (fs : FS.State) (stream : Bytes)
    (calls : List Call) (faulty : Bool) (s : St) (cs : List Bytes) : Prop where
  disk : OnDisk s.sh.fs (openedAll ti) files cs
  other : ∀ p, p ∉ files.map EntryBase.localPath → s.sh.fs p = fs p
  bytes : ∀ b v, cs.flatten[b]? = some v → stream[b]? = some v ∨ Written H hashes ti.numPieces pl calls b v
  len : s.ths.length = calls.length
  ths : ∀ (j : Nat) (c : Call) (t : Th), calls[j]? = some c → s.ths[j]? = some t → TInv H hashes ti.numPieces pl files stream calls faulty cs c t

theorem consec_end {pl : Nat} {hashes : Bytes} {files : List EntryBase} {ti : TorInfo} (h : Accepted pl hashes files ti) {cs : List Bytes}
    (hc : cs.map List.length = Files.lens files) (i : Nat) (hi : i < ti.numPieces) :
    ∃ locs, ti.PieceLookup i = .ok locs ∧ Consec (Files.lens files) (i * pl) locs (i * pl + (pieceOf cs.flatten pl i).length) := by
  obtain ⟨locs, h1, h2⟩ := h.locs i hi
  refine ⟨locs, h1, ?_⟩
  have hlen : total (Files.lens files) = cs.flatten.length := by unfold total; rw [← hc, List.length_flatten]
  have h3 := (covered_range cs.flatten pl i).2
  rw [hlen] at h2
  have := h2.le
  rw [show i * pl + (pieceOf cs.flatten pl i).length = covered pl cs.flatten.length i by omega]
  exact h2

theorem start_ginv (H : Bytes → Bytes) {pl : Nat} {hashes : Bytes} {files : List EntryBase} {ti : TorInfo} (h : Accepted pl hashes files ti)
    {fs : FS.State} {cs : List Bytes} (hs : Stored fs files cs) (calls : List Call) (hz : Sized H hashes ti.numPieces pl cs.flatten calls)
    (faulty : Bool) : GInv H hashes pl files ti fs cs.flatten calls faulty (init H ti fs calls) cs := by
  refine ⟨h.onDisk hs, fun _ _ => rfl, fun b v hb => .inl hb, by simp [init], ?_⟩
  intro j c t hc ht
  unfold init at ht
  simp only at ht
  rw [List.getElem?_map, hc] at ht
  simp only [Option.map_some, Option.some.injEq] at ht
  subst ht
  have hmem := List.mem_of_getElem? hc
  cases c with
  | read i buf =>
    unfold start startRead
    simp only
    by_cases hi : 0 ≤ i ∧ i < ti.numPieces
    · obtain ⟨k, rfl⟩ := Int.eq_ofNat_of_zero_le hi.1
      have hk : k < ti.numPieces := by omega
      obtain ⟨locs, h1, h2⟩ := consec_end h hs.1 k hk
      rw [h1]
      exact .read k buf _ hk rfl ⟨h2, hz.read k buf hmem hk, by simp, by simp, by simp⟩ rfl (by simp) (by simp [prog])
    · rw [C23_out_of_range ti i (by omega)]
      exact .badRead i buf _ _ rfl (by intro k hk; omega)
  | write i d spare =>
    unfold start startWrite
    simp only
    by_cases hi : 0 ≤ i ∧ i < ti.numPieces
    · obtain ⟨k, rfl⟩ := Int.eq_ofNat_of_zero_le hi.1
      have hk : k < ti.numPieces := by omega
      obtain ⟨locs, h1, h2⟩ := consec_end h hs.1 k hk
      have hh := h.hash k hk
      rw [h1, hh]
      simp only
      split
      · rename_i hne
        exact .badWrite _ d spare _ _ rfl (by intro k' hk' he; have : k = k' := by omega
                                              subst this; exact hne)
      · rename_i heq
        have hiw : IsWrite H hashes ti.numPieces calls k d := ⟨hk, by simpa using heq, spare, hmem⟩
        refine .write k d spare _ hiw rfl ⟨h2, ?_, by simp, by simp, by simp⟩ rfl (by simp) (by simp [prog])
        simp only
        rw [List.length_append, hz.write k d hiw]; omega
    · rw [C23_out_of_range ti i (by omega)]
      exact .badWrite i d spare _ _ rfl (by intro k hk; omega)

theorem TStep.other {fio : FileIO} {faulty : Bool} {s s' : Shared} {t t' : Th} {files : List EntryBase}
    (hf : ∀ k : Nat, (fio.torInfo.flist[k]?).map Entry.base = files[k]?) (h : TStep fio faulty s t s' t') (p : Bytes)
    (hp : p ∉ files.map EntryBase.localPath) : s'.fs p = s.fs p := by
  cases h with
  | put l rest e k m c hpc hl he hw hc hs0 hm hk =>
    simp only
    unfold State.set
    rw [if_neg]
    intro heq
    apply hp
    have := hf l.fidx
    rw [he] at this
    rw [heq]
    exact List.mem_map.mpr ⟨e.base, List.mem_of_getElem? this.symm, rfl⟩
  | eof => rw [release_fs]
  | negative => rw [release_fs]
  | fail => rw [release_fs]
  | release => rw [release_fs]
  | _ => rfl

theorem GInv.step {H : Bytes → Bytes} {hashes : Bytes} {pl : Nat} {files : List EntryBase} {ti : TorInfo} {fs : FS.State} {stream : Bytes}
    {calls : List Call} {faulty : Bool} {s s' : St} {cs : List Bytes} (hd : (files.map EntryBase.localPath).Nodup)
    (hz : Sized H hashes ti.numPieces pl stream calls) (hl : cs.flatten.length = stream.length)
    (g : GInv H hashes pl files ti fs stream calls faulty s cs) (hs : Step (openedAll ti) faulty s s') :
    ∃ cs', GInv H hashes pl files ti fs stream calls faulty s' cs' ∧ cs'.flatten.length = stream.length := by
  cases hs with
  | mk j t t' sh' hj ht =>
    obtain ⟨hjl, -⟩ := List.getElem?_eq_some_iff.mp hj
    obtain ⟨c, hcj⟩ : ∃ c, calls[j]? = some c := ⟨_, List.getElem?_eq_getElem (by rw [← g.len]; exact hjl)⟩
    have hT := g.ths j c t hcj hj
    have hother : ∀ p, p ∉ files.map EntryBase.localPath → sh'.fs p = fs p := by
      intro p hp
      rw [ht.other g.disk.flist p hp, g.other p hp]
    -- assemble the invariant from what the step did
    have asm : ∀ cs', OnDisk sh'.fs (openedAll ti) files cs' →
        (∀ b v, cs'.flatten[b]? = some v → cs.flatten[b]? = some v ∨ Written H hashes ti.numPieces pl calls b v) →
        (∀ b : Nat, cs.flatten[b]? = none → cs'.flatten[b]? = none) →
        TInv H hashes ti.numPieces pl files stream calls faulty cs' c t' → cs'.flatten.length = stream.length →
        ∃ cs', GInv H hashes pl files ti fs stream calls faulty ⟨sh', s.ths.set j t'⟩ cs' ∧ cs'.flatten.length = stream.length := by
      intro cs' h1 h2 h2' h3 h4
      refine ⟨cs', ⟨h1, hother, ?_, by simp [g.len], ?_⟩, h4⟩
      · intro b v hb
        rcases h2 b v hb with h | h
        · exact g.bytes b v h
        · exact .inr h
      · intro i c' u hc' hu
        simp only at hu
        rw [List.getElem?_set] at hu
        by_cases hij : j = i
        · subst hij
          rw [if_pos rfl, if_pos hjl] at hu
          cases hu
          rw [hcj] at hc'; cases hc'
          exact h3
        · rw [if_neg hij] at hu
          cases g.ths i c' u hc' hu with
          | badRead i buf _ e hpc hi => exact .badRead i buf _ e hpc hi
          | badWrite i d spare _ e hpc hi => exact .badWrite i d spare _ e hpc hi
          | read i buf _ hi hw pos rest noErr got => exact .read i buf _ hi hw pos rest noErr got
          | write i d spare _ hi hw pos data noErr put =>
            refine .write i d spare _ hi hw pos data noErr ?_
            intro o ho
            obtain ⟨v, hv1, hv2⟩ := put o ho
            have hlt := (List.getElem?_eq_some_iff.mp hv1).1
            have hlt' : i * pl + o < cs'.flatten.length := by omega
            obtain ⟨w, hw'⟩ : ∃ w, cs'.flatten[i * pl + o]? = some w := ⟨_, List.getElem?_eq_getElem hlt'⟩
            refine ⟨w, hw', ?_⟩
            rcases h2 _ _ hw' with h | h
            · rw [hv1] at h; cases h; exact hv2
            · exact h
    have hnone : ∀ cs' : List Bytes, cs'.flatten.length = stream.length → ∀ b : Nat, cs.flatten[b]? = none → cs'.flatten[b]? = none := by
      intro cs' h b hb
      rw [List.getElem?_eq_none_iff] at hb ⊢
      omega
    cases hT with
    | badRead i buf _ e hpc hi => cases ht <;> simp_all
    | badWrite i d spare _ e hpc hi => cases ht <;> simp_all
    | read i buf _ hi hw pos rest noErr got =>
      obtain ⟨cs', d1, d2, d3, d4, d5, eff⟩ := effect hd g.disk pos ht
      have hw' : t'.write = false := by rw [d3]; exact hw
      have ne' : faulty = false → ∀ e, t'.pc ≠ .done (.err e) := by
        intro hf e he
        have := d5 e he
        rw [hf] at this; cases this
      cases eff with
      | silent h1 h2 h3 h4 =>
        subst h1
        refine asm cs' d1 (fun b v hb => .inl hb) (fun _ h => h) ?_ hl
        refine .read i buf t' hi hw' d2 (by rw [h3]; exact rest) ne' ?_
        rw [h3, h4]; exact got
      | failed hf h1 h2 h3 h4 h5 =>
        subst h1
        refine asm cs' d1 (fun b v hb => .inl hb) (fun _ h => h) ?_ hl
        refine .read i buf t' hi hw' d2 (by rw [h3]; exact rest) ne' ?_
        rw [h3]; intro o ho; exact got o (by omega)
      | got m hm hx hwf h1 h2 h4 h5 h3 h6 =>
        subst h1
        refine asm cs' d1 (fun b v hb => .inl hb) (fun _ h => h) ?_ hl
        have hrl : (range cs'.flatten (i * pl + prog t) m).length = m := range_length _ _ _ (by omega)
        have hfit := pos.fits
        refine .read i buf t' hi hw' d2 ?_ ne' ?_
        · rw [h3, ← rest]
          apply List.ext_getElem?
          intro x
          rw [List.getElem?_drop, List.getElem?_drop, getElem?_splice _ _ _ (by omega)]
          rw [if_neg (by omega), if_neg (by omega)]
        · intro o ho
          rw [h3, getElem?_splice _ _ _ (by omega)]
          split
          · rename_i hlt; exact got o hlt
          · rw [if_pos (by omega)]
            rw [getElem?_range, if_pos (by omega), show i * pl + prog t + (o - prog t) = i * pl + o by omega]
            have hlt : i * pl + o < cs'.flatten.length := by omega
            exact ⟨_, List.getElem?_eq_getElem hlt, g.bytes _ _ (List.getElem?_eq_getElem hlt)⟩
      | put m hm hx hwt h3 h4 h5 h1 h6 => rw [hw] at hwt; cases hwt
    | write i d spare _ hi hw pos data noErr put =>
      obtain ⟨cs', d1, d2, d3, d4, d5, eff⟩ := effect hd g.disk pos ht
      have hw' : t'.write = true := by rw [d3]; exact hw
      have ne' : faulty = false → ∀ e, t'.pc ≠ .done (.err e) := by
        intro hf e he
        have := d5 e he
        rw [hf] at this; cases this
      cases eff with
      | silent h1 h2 h3 h4 =>
        subst h1
        refine asm cs' d1 (fun b v hb => .inl hb) (fun _ h => h) ?_ hl
        refine .write i d spare t' hi hw' d2 (by rw [h3]; exact data) ne' ?_
        rw [h4]; exact put
      | failed hf h1 h2 h3 h4 h5 =>
        subst h1
        refine asm cs' d1 (fun b v hb => .inl hb) (fun _ h => h) ?_ hl
        refine .write i d spare t' hi hw' d2 (by rw [h3]; exact data) ne' ?_
        intro o ho; exact put o (by omega)
      | got m hm hx hwf h1 h2 h4 h5 h3 h6 => rw [hw] at hwf; cases hwf
      | put m hm hx hwt h3 h4 h5 h1 h6 =>
        have hfit := pos.fits
        have hrl : (range t.buf (prog t) m).length = m := range_length _ _ _ (by omega)
        have hdl := hz.write i d hi
        have hcl : cs'.flatten.length = stream.length := by rw [h1, splice_length _ _ _ (by omega)]; exact hl
        -- the bytes that were written
        have hnew : ∀ b, i * pl + prog t ≤ b → b < i * pl + prog t + m →
            ∃ v, cs'.flatten[b]? = some v ∧ Written H hashes ti.numPieces pl calls b v := by
          intro b hb1 hb2
          have hx : b - i * pl < d.length := by omega
          refine ⟨d[b - i * pl], ?_, i, d, hi, by omega, List.getElem?_eq_getElem hx⟩
          rw [h1, getElem?_splice _ _ _ (by omega), if_neg (by omega), if_pos (by omega), getElem?_range, if_pos (by omega), data,
            List.getElem?_append_left (by omega), show prog t + (b - (i * pl + prog t)) = b - i * pl by omega]
          exact List.getElem?_eq_getElem hx
        have hold : ∀ b, ¬ (i * pl + prog t ≤ b ∧ b < i * pl + prog t + m) → cs'.flatten[b]? = cs.flatten[b]? := by
          intro b hb
          rw [h1, getElem?_splice _ _ _ (by omega)]
          split
          · rfl
          · rw [if_neg (by omega)]
        refine asm cs' d1 ?_ (hnone cs' hcl) ?_ hcl
        · intro b v hb
          by_cases hin : i * pl + prog t ≤ b ∧ b < i * pl + prog t + m
          · obtain ⟨w, w1, w2⟩ := hnew b hin.1 hin.2
            rw [hb] at w1; cases w1
            exact .inr w2
          · rw [hold b hin] at hb; exact .inl hb
        · refine .write i d spare t' hi hw' d2 (by rw [h3]; exact data) ne' ?_
          intro o ho
          by_cases hin : prog t ≤ o
          · exact hnew (i * pl + o) (by omega) (by omega)
          · rw [hold _ (by omega)]; exact put o (by omega)

theorem ginv_reach (H : Bytes → Bytes) {pl : Nat} {hashes : Bytes} {files : List EntryBase} {ti : TorInfo} (h : Accepted pl hashes files ti)
    (hd : (files.map EntryBase.localPath).Nodup) {fs : FS.State} {cs : List Bytes} (hs : Stored fs files cs) (calls : List Call)
    (hz : Sized H hashes ti.numPieces pl cs.flatten calls) (faulty : Bool) (s : St)
    (hr : Reach (Step (openedAll ti) faulty) (init H ti fs calls) s) :
    ∃ cs', GInv H hashes pl files ti fs cs.flatten calls faulty s cs' ∧ cs'.flatten.length = cs.flatten.length := by
  induction hr with
  | refl => exact ⟨cs, start_ginv H h hs calls hz faulty, rfl⟩
  | tail s' s'' _ hstep ih =>
    obtain ⟨cs', g, hl⟩ := ih
    exact g.step hd hz hl hstep

/-! ## bytes -/

/-- **C74**, bytes: at every moment of every execution (system calls may fail) the files of the torrent have their lengths, other files are
untouched, and every byte is the one that was there at the beginning or was written by a call with the right hash.
A ReadPiece that returns successfully delivers the whole piece, with each byte being one of these, and leaves the rest of the buffer alone. -/
theorem C74_bytes (H : Bytes → Bytes) (pl : Nat) (hashes : Bytes) (files : List EntryBase) (ti : TorInfo) (h : Accepted pl hashes files ti)
    (hd : (files.map EntryBase.localPath).Nodup) (fs : FS.State) (cs : List Bytes) (hs : Stored fs files cs) (calls : List Call)
    (hz : Sized H hashes ti.numPieces pl cs.flatten calls) (faulty : Bool) (s : St)
    (hr : Reach (Step (openedAll ti) faulty) (init H ti fs calls) s) :
    ∃ cs', Stored s.sh.fs files cs' ∧ (∀ p, p ∉ files.map EntryBase.localPath → s.sh.fs p = fs p) ∧
      (∀ b v, cs'.flatten[b]? = some v → cs.flatten[b]? = some v ∨ Written H hashes ti.numPieces pl calls b v) ∧
      ∀ (j : Nat) (i : Int) (buf : Bytes) (t : Th) (n : Nat), calls[j]? = some (.read i buf) → s.ths[j]? = some t → t.pc = .done (.ok n) →
        ∃ k : Nat, i = k ∧ k < ti.numPieces ∧ n = (pieceOf cs.flatten pl k).length ∧ t.buf.drop n = buf.drop n ∧
          ∀ o < n, ∃ v, t.buf[o]? = some v ∧
            (cs.flatten[k * pl + o]? = some v ∨ Written H hashes ti.numPieces pl calls (k * pl + o) v) := by
  obtain ⟨cs', g, -⟩ := ginv_reach H h hd hs calls hz faulty s hr
  refine ⟨cs', ⟨g.disk.lens, fun k f c hf hc => (g.disk.disk k f c hf hc).1⟩, g.other, g.bytes, ?_⟩
  intro j i buf t n hc ht hpc
  cases g.ths j _ t hc ht with
  | badRead _ _ _ e hpc' hi => rw [hpc] at hpc'; cases hpc'
  | read k _ _ hi hw pos rest noErr got =>
    rcases pos.fin _ hpc with ⟨e, he⟩ | ⟨he, ho⟩
    · cases he
    · cases he
      have : prog t = (pieceOf cs.flatten pl k).length := by unfold prog; rw [hpc]; exact ho
      rw [this] at got
      exact ⟨k, rfl, hi, rfl, rest, got⟩

/-- **C74**, a WritePiece that has returned successfully: all of the piece was written, and each of its bytes is from a call with the right hash
(this one, or another one that wrote the piece later). -/
theorem C74_written (H : Bytes → Bytes) (pl : Nat) (hashes : Bytes) (files : List EntryBase) (ti : TorInfo) (h : Accepted pl hashes files ti)
    (hd : (files.map EntryBase.localPath).Nodup) (fs : FS.State) (cs : List Bytes) (hs : Stored fs files cs) (calls : List Call)
    (hz : Sized H hashes ti.numPieces pl cs.flatten calls) (faulty : Bool) (s : St)
    (hr : Reach (Step (openedAll ti) faulty) (init H ti fs calls) s) :
    ∃ cs', Stored s.sh.fs files cs' ∧
      ∀ (j : Nat) (i : Int) (d spare : Bytes) (t : Th) (n : Nat), calls[j]? = some (.write i d spare) → s.ths[j]? = some t →
        t.pc = .done (.ok n) →
        ∃ k : Nat, i = k ∧ IsWrite H hashes ti.numPieces calls k d ∧ n = d.length ∧
          (∀ o < n, ∃ v, cs'.flatten[k * pl + o]? = some v ∧ Written H hashes ti.numPieces pl calls (k * pl + o) v) ∧
          ((∀ d', IsWrite H hashes ti.numPieces calls k d' → d' = d) → pieceOf cs'.flatten pl k = d) := by
  obtain ⟨cs', g, hl⟩ := ginv_reach H h hd hs calls hz faulty s hr
  refine ⟨cs', ⟨g.disk.lens, fun k f c hf hc => (g.disk.disk k f c hf hc).1⟩, ?_⟩
  intro j i d spare t n hc ht hpc
  cases g.ths j _ t hc ht with
  | badWrite _ _ _ _ e hpc' hi => rw [hpc] at hpc'; cases hpc'
  | write k _ _ _ hi hw pos data noErr put =>
    rcases pos.fin _ hpc with ⟨e, he⟩ | ⟨he, ho⟩
    · cases he
    · cases he
      have : prog t = (pieceOf cs.flatten pl k).length := by unfold prog; rw [hpc]; exact ho
      rw [this] at put
      have hdl := hz.write k d hi
      refine ⟨k, rfl, hi, hdl.symm, put, ?_⟩
      intro hall
      have hlen : (pieceOf cs'.flatten pl k).length = d.length := by rw [hdl, pieceOf_length, pieceOf_length, hl]
      have hdpl : d.length ≤ pl := by rw [hdl, pieceOf_length]; omega
      apply List.ext_getElem?
      intro o
      rcases Nat.lt_or_ge o d.length with hlt | hge
      · obtain ⟨v, v1, k', d', w1, w2, w3⟩ := put o (by omega)
        have hk : k' = k := by
          have hd' := hz.write k' d' w1
          have hx := (List.getElem?_eq_some_iff.mp w3).1
          rw [hd', pieceOf_length] at hx
          have hlt1 : k * pl + o < (k + 1) * pl := by rw [Nat.add_mul]; omega
          have hlt2 : k * pl + o < (k' + 1) * pl := by rw [Nat.add_mul]; omega
          have a1 : k' < k + 1 := Nat.lt_of_mul_lt_mul_right (Nat.lt_of_le_of_lt w2 hlt1)
          have a2 : k < k' + 1 := Nat.lt_of_mul_lt_mul_right (Nat.lt_of_le_of_lt (Nat.le_add_right _ _) hlt2)
          omega
        subst hk
        rw [hall d' w1, show k' * pl + o - k' * pl = o by omega] at w3
        rw [w3]
        have : (pieceOf cs'.flatten pl k')[o]? = if o < pl then cs'.flatten[k' * pl + o]? else none := getElem?_range _ _ _ _
        rw [this, if_pos (by omega), v1]
      · rw [List.getElem?_eq_none_iff.mpr (by omega), List.getElem?_eq_none_iff.mpr hge]

theorem piece_byte (x : Bytes) (pl i o : Nat) (ho : o < (pieceOf x pl i).length) : (pieceOf x pl i)[o]? = x[i * pl + o]? := by
  rw [pieceOf_length] at ho
  have : (pieceOf x pl i)[o]? = if o < pl then x[i * pl + o]? else none := getElem?_range _ _ _ _
  rw [this, if_pos (by omega)]

theorem written_piece {H : Bytes → Bytes} {hashes : Bytes} {np pl : Nat} {stream : Bytes} {calls : List Call}
    (hz : Sized H hashes np pl stream calls) {k o : Nat} {v : UInt8} (ho : o < pl) (hw : Written H hashes np pl calls (k * pl + o) v) :
    ∃ d, IsWrite H hashes np calls k d ∧ d[o]? = some v := by
  obtain ⟨k', d', w1, w2, w3⟩ := hw
  have hk : k' = k := by
    have hd' := hz.write k' d' w1
    have hx := (List.getElem?_eq_some_iff.mp w3).1
    rw [hd', pieceOf_length] at hx
    have hlt1 : k * pl + o < (k + 1) * pl := by rw [Nat.add_mul]; omega
    have hlt2 : k * pl + o < (k' + 1) * pl := by rw [Nat.add_mul]; omega
    have a1 : k' < k + 1 := Nat.lt_of_mul_lt_mul_right (Nat.lt_of_le_of_lt w2 hlt1)
    have a2 : k < k' + 1 := Nat.lt_of_mul_lt_mul_right (Nat.lt_of_le_of_lt (Nat.le_add_right _ _) hlt2)
    omega
  subst hk
  exact ⟨d', w1, by rw [← w3]; congr 1; omega⟩

/-- **C74**, pieces do not disturb each other: if all writes to piece `k` write what is there already (in particular, if nobody writes it), then
whatever is written to other pieces at the same time, the piece stays as it is, and every successful ReadPiece delivers it. -/
theorem C74_stable (H : Bytes → Bytes) (pl : Nat) (hashes : Bytes) (files : List EntryBase) (ti : TorInfo) (h : Accepted pl hashes files ti)
    (hd : (files.map EntryBase.localPath).Nodup) (fs : FS.State) (cs : List Bytes) (hs : Stored fs files cs) (calls : List Call)
    (hz : Sized H hashes ti.numPieces pl cs.flatten calls) (k : Nat)
    (hk : ∀ d, IsWrite H hashes ti.numPieces calls k d → d = pieceOf cs.flatten pl k) (faulty : Bool) (s : St)
    (hr : Reach (Step (openedAll ti) faulty) (init H ti fs calls) s) :
    ∃ cs', Stored s.sh.fs files cs' ∧ pieceOf cs'.flatten pl k = pieceOf cs.flatten pl k ∧
      ∀ (j : Nat) (buf : Bytes) (t : Th) (n : Nat), calls[j]? = some (.read k buf) → s.ths[j]? = some t → t.pc = .done (.ok n) →
        n = (pieceOf cs.flatten pl k).length ∧ t.buf = pieceOf cs.flatten pl k ++ buf.drop n := by
  have key : ∀ o v, o < (pieceOf cs.flatten pl k).length →
      (cs.flatten[k * pl + o]? = some v ∨ Written H hashes ti.numPieces pl calls (k * pl + o) v) → (pieceOf cs.flatten pl k)[o]? = some v := by
    intro o v ho hv
    rcases hv with hv | hv
    · rw [piece_byte _ _ _ _ ho]; exact hv
    · have : o < pl := by rw [pieceOf_length] at ho; omega
      obtain ⟨d, d1, d2⟩ := written_piece hz this hv
      rw [hk d d1] at d2; exact d2
  obtain ⟨cs', h1, -, h3, h4⟩ := C74_bytes H pl hashes files ti h hd fs cs hs calls hz faulty s hr
  have hlen : cs'.flatten.length = cs.flatten.length := by
    rw [List.length_flatten, List.length_flatten, h1.1, hs.1]
  refine ⟨cs', h1, ?_, ?_⟩
  · have hl : (pieceOf cs'.flatten pl k).length = (pieceOf cs.flatten pl k).length := by rw [pieceOf_length, pieceOf_length, hlen]
    apply List.ext_getElem?
    intro o
    rcases Nat.lt_or_ge o (pieceOf cs.flatten pl k).length with hlt | hge
    · have hx : k * pl + o < cs'.flatten.length := by rw [pieceOf_length] at hlt; omega
      rw [piece_byte _ _ _ _ (by omega), List.getElem?_eq_getElem hx]
      exact (key o _ hlt (h3 _ _ (List.getElem?_eq_getElem hx))).symm
    · rw [List.getElem?_eq_none_iff.mpr (by omega), List.getElem?_eq_none_iff.mpr hge]
  · intro j buf t n hc ht hpc
    obtain ⟨k', e1, -, e3, e4, e5⟩ := h4 j k buf t n hc ht hpc
    have : k' = k := by omega
    subst this
    refine ⟨e3, ?_⟩
    rw [← List.take_append_drop n t.buf, e4]
    congr 1
    have hnl : n ≤ t.buf.length := by
      rcases Nat.lt_or_ge t.buf.length n with hlt | hge
      · obtain ⟨v, hv, -⟩ := e5 t.buf.length hlt
        rw [List.getElem?_eq_none_iff.mpr (Nat.le_refl _)] at hv; cases hv
      · exact hge
    apply List.ext_getElem?
    intro o
    rcases Nat.lt_or_ge o n with hlt | hge
    · obtain ⟨v, v1, v2⟩ := e5 o hlt
      rw [List.getElem?_take_of_lt hlt, v1, key o v (by omega) v2]
    · rw [List.getElem?_eq_none_iff.mpr (by rw [List.length_take]; omega), List.getElem?_eq_none_iff.mpr (by omega)]

/-- **C74**, no deadlock: whatever the metadata, the calls and the schedule, all calls return. -/
theorem C74_all_return (H : Bytes → Bytes) (fio : FileIO) (ti : TorInfo) (fs : FS.State) (calls : List Call) (faulty : Bool) :
    Inevitable (Step fio faulty) AllDone (init H ti fs calls) :=
  (start_linv H fio ti fs calls).inevitable

/-- **C74**, results: if no system call fails, then when all have returned, exactly the reads of existing pieces and the writes of
existing pieces with the right hash have succeeded; the others have returned an error (and done nothing, by `C74_bytes`). -/
theorem C74_results (H : Bytes → Bytes) (pl : Nat) (hashes : Bytes) (files : List EntryBase) (ti : TorInfo) (h : Accepted pl hashes files ti)
    (hd : (files.map EntryBase.localPath).Nodup) (fs : FS.State) (cs : List Bytes) (hs : Stored fs files cs) (calls : List Call)
    (hz : Sized H hashes ti.numPieces pl cs.flatten calls) (s : St)
    (hr : Reach (Step (openedAll ti) false) (init H ti fs calls) s) (hall : AllDone s) :
    ∀ (j : Nat) (t : Th), s.ths[j]? = some t →
      (∀ (i : Int) buf, calls[j]? = some (.read i buf) →
        (∃ n, t.pc = .done (.ok n)) ∧ 0 ≤ i ∧ i < ti.numPieces ∨ (∃ e, t.pc = .done (.err e)) ∧ ¬ (0 ≤ i ∧ i < ti.numPieces)) ∧
      (∀ (i : Int) d spare, calls[j]? = some (.write i d spare) →
        (t.pc = .done (.ok d.length)) ∧ (∃ k : Nat, i = k ∧ IsWrite H hashes ti.numPieces calls k d) ∨
        (∃ e, t.pc = .done (.err e)) ∧ ∀ k : Nat, i = k → ¬ IsWrite H hashes ti.numPieces calls k d) := by
  obtain ⟨cs', g, -⟩ := ginv_reach H h hd hs calls hz false s hr
  intro j t ht
  obtain ⟨r, hpc⟩ := hall t (List.mem_of_getElem? ht)
  constructor
  · intro i buf hc
    cases g.ths j _ t hc ht with
    | badRead _ _ _ e hpc' hi =>
      refine .inr ⟨⟨e, hpc'⟩, ?_⟩
      rintro ⟨h1, h2⟩
      exact hi i.toNat (by omega) (by omega)
    | read k _ _ hi hw pos rest noErr got =>
      rcases pos.fin r hpc with ⟨e, rfl⟩ | ⟨rfl, -⟩
      · exact absurd hpc (noErr rfl e)
      · exact .inl ⟨⟨_, hpc⟩, by omega, by omega⟩
  · intro i d spare hc
    cases g.ths j _ t hc ht with
    | badWrite _ _ _ _ e hpc' hi =>
      refine .inr ⟨⟨e, hpc'⟩, ?_⟩
      rintro k rfl ⟨h1, h2, -⟩
      exact hi k h1 rfl h2
    | write k _ _ _ hi hw pos data noErr put =>
      rcases pos.fin r hpc with ⟨e, rfl⟩ | ⟨rfl, -⟩
      · exact absurd hpc (noErr rfl e)
      · exact .inl ⟨by rw [hz.write k d hi]; exact hpc, k, rfl, hi⟩

/-- **C74**, no panic: even if system calls fail, a call returns the number of bytes or an error. -/
theorem C74_no_panic (H : Bytes → Bytes) (pl : Nat) (hashes : Bytes) (files : List EntryBase) (ti : TorInfo) (h : Accepted pl hashes files ti)
    (hd : (files.map EntryBase.localPath).Nodup) (fs : FS.State) (cs : List Bytes) (hs : Stored fs files cs) (calls : List Call)
    (hz : Sized H hashes ti.numPieces pl cs.flatten calls) (faulty : Bool) (s : St)
    (hr : Reach (Step (openedAll ti) faulty) (init H ti fs calls) s) (t : Th) (ht : t ∈ s.ths) (r : Res Nat) (hpc : t.pc = .done r) :
    (∃ n, r = .ok n) ∨ ∃ e, r = .err e := by
  obtain ⟨cs', g, -⟩ := ginv_reach H h hd hs calls hz faulty s hr
  obtain ⟨j, hj⟩ := List.mem_iff_getElem?.mp ht
  obtain ⟨hjl, -⟩ := List.getElem?_eq_some_iff.mp hj
  obtain ⟨c, hcj⟩ : ∃ c, calls[j]? = some c := ⟨_, List.getElem?_eq_getElem (by rw [← g.len]; exact hjl)⟩
  cases g.ths j c t hcj hj with
  | badRead _ _ _ e hpc' hi => rw [hpc] at hpc'; cases hpc'; exact .inr ⟨e, rfl⟩
  | badWrite _ _ _ _ e hpc' hi => rw [hpc] at hpc'; cases hpc'; exact .inr ⟨e, rfl⟩
  | read k _ _ hi hw pos rest noErr got =>
    rcases pos.fin r hpc with ⟨e, rfl⟩ | ⟨rfl, -⟩
    · exact .inr ⟨e, rfl⟩
    · exact .inl ⟨_, rfl⟩
  | write k _ _ _ hi hw pos data noErr put =>
    rcases pos.fin r hpc with ⟨e, rfl⟩ | ⟨rfl, -⟩
    · exact .inr ⟨e, rfl⟩
    · exact .inl ⟨_, rfl⟩

/-! ### an instance -/

/-- the files of the examples of C26, empty -/
def exDisk : FS.State := fun p => if p = ascii "a" then some [0, 0, 0, 0, 0] else if p = ascii "e" then some [] else
  if p = ascii "b" then some [0, 0, 0, 0, 0, 0, 0, 0] else none

def exContents : List Bytes := [[0, 0, 0, 0, 0], [], [0, 0, 0, 0, 0, 0, 0, 0]]

/-- two writes, one of them of a piece that crosses the files, a refused write, a read, and a read of a piece that does not exist -/
def exCalls : List Call :=
  [.write 1 [5, 6, 7, 8] [], .write 3 [13] [7], .write 2 [1, 1, 1, 1] [], .read 1 (List.replicate 4 0), .read 9 []]

theorem exStored : Stored exDisk exFiles exContents := by
  refine ⟨by decide, ?_⟩
  intro k f c hf hc
  match k with
  | 0 => cases hf; cases hc; decide
  | 1 => cases hf; cases hc; decide
  | 2 => cases hf; cases hc; decide
  | k + 3 => cases hc

theorem exSized : Sized exH exHashes 4 4 exContents.flatten exCalls := by
  constructor
  · rintro i d ⟨h1, h2, spare, h3⟩
    simp only [exCalls, List.mem_cons, Call.write.injEq, List.mem_nil_iff, or_false, reduceCtorEq] at h3
    rcases h3 with ⟨h, rfl, -⟩ | ⟨h, rfl, -⟩ | ⟨h, rfl, -⟩
    · have : i = 1 := by omega
      subst this; decide
    · have : i = 3 := by omega
      subst this; decide
    · have : i = 2 := by omega
      subst this; decide
  · intro i buf h hi
    simp only [exCalls, List.mem_cons, Call.read.injEq, List.mem_nil_iff, or_false, false_or, reduceCtorEq] at h
    rcases h with ⟨h, rfl⟩ | ⟨h, rfl⟩
    · have : i = 1 := by omega
      subst this; decide
    · omega

/-- the hypotheses of the theorems above hold for this instance, and a final state exists -/
example : ∃ ti s, Accepted 4 exHashes exFiles ti ∧ (exFiles.map EntryBase.localPath).Nodup ∧ Stored exDisk exFiles exContents ∧
    Sized exH exHashes ti.numPieces 4 exContents.flatten exCalls ∧
    (∀ d, IsWrite exH exHashes ti.numPieces exCalls 0 d → d = pieceOf exContents.flatten 4 0) ∧
    Reach (Step (openedAll ti) false) (init exH ti exDisk exCalls) s ∧ AllDone s := by
  have fin : ∀ ti s, Reach (Step (openedAll ti) false) (init exH ti exDisk exCalls) s →
      Inevitable (Step (openedAll ti) false) AllDone s →
      ∃ s', Reach (Step (openedAll ti) false) (init exH ti exDisk exCalls) s' ∧ AllDone s' := by
    intro ti s hr hi
    induction hi with
    | now s h => exact ⟨s, hr, h⟩
    | next s hex hall ih =>
      obtain ⟨s', hs⟩ := hex
      exact ih s' hs (.tail s s' hr hs)
  have hacc : Accepted 4 exHashes exFiles _ := ⟨by decide, exFiles_nonneg, ascii "t", rfl⟩
  obtain ⟨s, h1, h2⟩ := fin _ _ .refl (C74_all_return exH (openedAll _) _ exDisk exCalls false)
  refine ⟨_, s, hacc, by decide +kernel, exStored, exSized, ?_, h1, h2⟩
  rintro d ⟨-, -, spare, h3⟩
  simp [exCalls] at h3

end Verif.FileConc
