import Verif.Lemmas.FileEnv
import Verif.Props.FileConc
/-
Property C128: other programs change the files while pieces are read and written.
-/
set_option autoImplicit false

namespace Verif.FileEnv
open Verif.Files Verif.FS Verif.FileIO Verif.Layout Verif.Lts
open Verif.FileConc hiding St Step init

/-- number of bytes of piece `i` of a torrent with `N` bytes -/
def size (pl N i : Nat) : Nat := min pl (N - i * pl)

/-- in this state of the files, the byte at position `b` of the torrent is `v` -/
def ByteAt (files : List EntryBase) (fs : FS.State) (b : Nat) (v : UInt8) : Prop :=
  ∃ (k : Nat) (f : EntryBase) (c : Bytes), files[k]? = some f ∧ startPos (Files.lens files) k ≤ b ∧ b < startPos (Files.lens files) (k + 1) ∧
    fs f.localPath = some c ∧ c[b - startPos (Files.lens files) k]? = some v

/-- for each of the positions `0, …, n - 1` there is a moment, not before `lo`, at which the files were as `Q` says, and the moments come in the order
of the positions -/
def InOrder (past : List FS.State) (lo n : Nat) (Q : FS.State → Nat → Prop) : Prop :=
  ∃ τ : Nat → Nat, (∀ o o', o ≤ o' → o' < n → τ o ≤ τ o') ∧ ∀ o < n, lo ≤ τ o ∧ ∃ fs, past[τ o]? = some fs ∧ Q fs o

theorem InOrder.append {past : List FS.State} {lo n : Nat} {Q : FS.State → Nat → Prop} (h : InOrder past lo n Q) (more : List FS.State) :
    InOrder (past ++ more) lo n Q := by
  obtain ⟨τ, h1, h2⟩ := h
  refine ⟨τ, h1, fun o ho => ?_⟩
  obtain ⟨h3, fs, h4, h5⟩ := h2 o ho
  exact ⟨h3, fs, by rw [List.getElem?_append_left (List.getElem?_eq_some_iff.mp h4).1]; exact h4, h5⟩

theorem InOrder.mono {past : List FS.State} {lo n m : Nat} {Q Q' : FS.State → Nat → Prop} (h : InOrder past lo n Q) (hm : m ≤ n)
    (hq : ∀ fs o, o < m → Q fs o → Q' fs o) : InOrder past lo m Q' := by
  obtain ⟨τ, h1, h2⟩ := h
  refine ⟨τ, fun o o' ho ho' => h1 o o' ho (by omega), fun o ho => ?_⟩
  obtain ⟨h3, fs, h4, h5⟩ := h2 o (by omega)
  exact ⟨h3, fs, h4, hq fs o ho h5⟩

/-- further positions, at the last moment -/
theorem InOrder.extend {past p : List FS.State} {fs : FS.State} {lo n m : Nat} {Q : FS.State → Nat → Prop} (h : InOrder past lo n Q)
    (hp : past = p ++ [fs]) (hlo : lo < past.length) (hq : ∀ o, n ≤ o → o < m → Q fs o) : InOrder past lo m Q := by
  obtain ⟨τ, h1, h2⟩ := h
  have hlen : past.length = p.length + 1 := by rw [hp]; simp
  have hlt : ∀ o, o < n → τ o ≤ p.length := by
    intro o ho
    obtain ⟨-, fs', h4, -⟩ := h2 o ho
    have := (List.getElem?_eq_some_iff.mp h4).1
    omega
  refine ⟨fun o => if o < n then τ o else p.length, ?_, ?_⟩
  · intro o o' h3 h4
    simp only
    split
    · rename_i h5
      split
      · rename_i h6; exact h1 o o' h3 h6
      · exact hlt o h5
    · rw [if_neg (by omega)]; exact Nat.le_refl _
  · intro o ho
    simp only
    split
    · rename_i h5; exact h2 o h5
    · rename_i h5
      exact ⟨by omega, fs, by rw [hp]; simp, hq o (by omega) ho⟩

/-- a goroutine in `ReadPiece` -/
structure RInv (files : List EntryBase) (lo a n : Nat) (buf : Bytes) (past : List FS.State) (t : Th) : Prop where
  wr : t.write = false
  pos : Pos (Files.lens files) a n t
  rest : t.buf.drop n = buf.drop n
  got : InOrder past lo (prog t) fun fs o => ∃ v, t.buf[o]? = some v ∧ ByteAt files fs (a + o) v

/-- a goroutine in `WritePiece` -/
structure WInv (files : List EntryBase) (lo a n : Nat) (d : Bytes) (past : List FS.State) (t : Th) : Prop where
  wr : t.write = true
  pos : Pos (Files.lens files) a n t
  data : t.buf = d
  put : InOrder past lo (prog t) fun fs o => ∃ v, d[o]? = some v ∧ ByteAt files fs (a + o) v

theorem writeAt_get (c : Bytes) (x : Nat) (d : Bytes) (i : Nat) (h1 : x ≤ i) (h2 : i < x + d.length) : (writeAt c x d)[i]? = d[i - x]? := by
  unfold writeAt
  rw [if_neg (by rintro rfl; simp at h2; omega)]
  have hl : ((c ++ List.replicate (x - c.length) 0).take x).length = x := by simp; omega
  rw [List.append_assoc, List.getElem?_append_right (by omega), hl, List.getElem?_append_left (by omega)]

theorem RInv.step {fio : FileIO} {faulty : Bool} {files : List EntryBase} {lo a n : Nat} {buf : Bytes} {past p : List FS.State} {s s' : Shared} {t t' : Th}
    (hb : ∀ k : Nat, (fio.torInfo.flist[k]?).map Entry.base = files[k]?)
    (hop : ∀ (k : Nat) (e : Entry), fio.torInfo.flist[k]? = some e → e.base.localPath ∈ fio.opened)
    (h : RInv files lo a n buf past t) (hp : past = p ++ [s.fs]) (hlo : lo < past.length) (hs : TStep fio faulty s t s' t') :
    RInv files lo a n buf (past ++ [s'.fs]) t' := by
  obtain ⟨p1, p2, p3⟩ := eff hb hop h.pos hs
  cases p3 with
  | quiet h2 h3 h4 h5 =>
    exact ⟨by rw [p2]; exact h.wr, p1, by rw [h3]; exact h.rest, (h.got.mono h4 (by rw [h3]; exact fun _ _ _ q => q)).append _⟩
  | got m k x f c hw h2 h4 h5 hf hc h6 h7 h8 h3 h9 =>
    have hrl : (range c x m).length = m := range_length _ _ _ h8
    have hfit := h.pos.fits
    have hget := fun i => getElem?_splice t.buf (prog t) (range c x m) (by rw [hrl]; omega) i
    refine ⟨by rw [p2]; exact h.wr, p1, ?_, InOrder.append ?_ _⟩
    · rw [← h.rest]
      apply List.ext_getElem?
      intro i
      rw [List.getElem?_drop, List.getElem?_drop, h3, hget, hrl, if_neg (by omega), if_neg (by omega)]
    · refine InOrder.extend (n := prog t) (h.got.mono (Nat.le_refl _) ?_) hp hlo ?_
      · rintro fs o ho ⟨v, v1, v2⟩
        exact ⟨v, by rw [h3, hget, if_pos ho]; exact v1, v2⟩
      · intro o ho1 ho2
        have hlt : o - prog t < (range c x m).length := by omega
        refine ⟨(range c x m)[o - prog t], ?_, k, f, c, hf, by omega, by omega, hc, ?_⟩
        · rw [h3, hget, hrl, if_neg (by omega), if_pos (by omega), List.getElem?_eq_getElem hlt]
        · rw [← List.getElem?_eq_getElem hlt, show a + o - startPos (Files.lens files) k = x + (o - prog t) by omega]
          unfold range
          rw [List.getElem?_take_of_lt (by omega), List.getElem?_drop]
  | put m k x f c hw => rw [h.wr] at hw; cases hw

theorem WInv.step {fio : FileIO} {faulty : Bool} {files : List EntryBase} {lo a n : Nat} {d : Bytes} {past p : List FS.State} {s s' : Shared} {t t' : Th}
    (hb : ∀ k : Nat, (fio.torInfo.flist[k]?).map Entry.base = files[k]?)
    (hop : ∀ (k : Nat) (e : Entry), fio.torInfo.flist[k]? = some e → e.base.localPath ∈ fio.opened)
    (h : WInv files lo a n d past t) (_ : past = p ++ [s.fs]) (hlo : lo < past.length) (hs : TStep fio faulty s t s' t') :
    WInv files lo a n d (past ++ [s'.fs]) t' := by
  obtain ⟨p1, p2, p3⟩ := eff hb hop h.pos hs
  cases p3 with
  | quiet h2 h3 h4 h5 =>
    exact ⟨by rw [p2]; exact h.wr, p1, by rw [h3]; exact h.data, (h.put.mono h4 (fun _ _ _ q => q)).append _⟩
  | got m k x f c hw => rw [h.wr] at hw; cases hw
  | put m k x f c hw h3 h4 h5 hm hf h6 h7 h2 h9 =>
    have hfit := h.pos.fits
    have hrl : (range t.buf (prog t) m).length = m := range_length _ _ _ (by omega)
    refine ⟨by rw [p2]; exact h.wr, p1, by rw [h3]; exact h.data, InOrder.extend (n := prog t) (h.put.append _) rfl (by simp; omega) ?_⟩
    intro o ho1 ho2
    have hlt : o - prog t < (range t.buf (prog t) m).length := by omega
    refine ⟨(range t.buf (prog t) m)[o - prog t], ?_, k, f, _, hf, by omega, by omega, by rw [h2]; exact if_pos rfl, ?_⟩
    · rw [← List.getElem?_eq_getElem hlt, ← h.data]
      unfold range
      rw [List.getElem?_take_of_lt (by omega), List.getElem?_drop, show prog t + (o - prog t) = o by omega]
    · rw [writeAt_get _ _ _ _ (by omega) (by omega), ← List.getElem?_eq_getElem hlt]
      congr 1; omega

theorem accepted_base {pl : Nat} {hashes : Bytes} {files : List EntryBase} {ti : TorInfo} (h : Accepted pl hashes files ti) :
    (∀ k : Nat, ((openedAll ti).torInfo.flist[k]?).map Entry.base = files[k]?) ∧
    ∀ (k : Nat) (e : Entry), (openedAll ti).torInfo.flist[k]? = some e → e.base.localPath ∈ (openedAll ti).opened := by
  refine ⟨?_, fun k e he => List.mem_map.mpr ⟨e, List.mem_of_getElem? he, rfl⟩⟩
  obtain ⟨-, -, hfl⟩ := h.np
  intro k
  unfold openedAll
  simp only
  rw [hfl, entriesFrom_get]
  cases files[k]? with
  | none => rfl
  | some f =>
    simp only [Option.map_some]
    congr 1
    unfold entryAt; split
    · rfl
    · split <;> rfl

/-- what holds for a goroutine when it begins and is preserved by its steps and by time going by holds for it always -/
theorem along {fio : FileIO} {faulty : Bool} {P : List FS.State → Th → Prop} {lo j : Nat} {s0 s : St}
    (h0 : ∃ p, s0.past = p ++ [s0.st.sh.fs]) (hlo : lo < s0.past.length) (hr : Reach (Step fio faulty) s0 s)
    (hP : ∀ t, s0.st.ths[j]? = some t → P s0.past t) (happ : ∀ past fs t, P past t → P (past ++ [fs]) t)
    (hstep : ∀ past p (s s' : Shared) t t', P past t → past = p ++ [s.fs] → lo < past.length → TStep fio faulty s t s' t' → P (past ++ [s'.fs]) t') :
    lo < s.past.length ∧ ∀ t, s.st.ths[j]? = some t → P s.past t := by
  induction hr with
  | refl => exact ⟨hlo, hP⟩
  | tail s' s'' hr' hs ih =>
    obtain ⟨p, hp⟩ := past_last h0 hr'
    obtain ⟨h1, h2⟩ := ih
    cases hs with
    | work st' h =>
      refine ⟨by simp only [List.length_append]; omega, ?_⟩
      cases h with
      | mk i u u' sh' hi ht =>
        intro t hj
        simp only at hj
        rw [List.getElem?_set] at hj
        split at hj
        · rename_i hij
          subst hij
          rw [if_pos (List.getElem?_eq_some_iff.mp hi).1] at hj
          cases hj
          exact hstep _ p _ _ _ _ (h2 u hi) hp h1 ht
        · exact happ _ _ _ (h2 t hj)
    | other fs => exact ⟨by simp only [List.length_append]; omega, fun t hj => happ _ _ _ (h2 t hj)⟩

theorem covered_size (pl N i : Nat) : covered pl N i = i * pl + size pl N i := by
  have hmul : (i + 1) * pl = i * pl + pl := by rw [Nat.add_mul]; omega
  unfold covered size
  rw [hmul]; omega

/-- the beginning of a call of `ReadPiece` for an existing piece -/
theorem start_read {pl : Nat} {hashes : Bytes} {files : List EntryBase} {ti : TorInfo} (h : Accepted pl hashes files ti) (H : Bytes → Bytes) (k : Nat)
    (hk : k < ti.numPieces) (buf : Bytes) (hb : size pl (total (Files.lens files)) k ≤ buf.length) :
    (start H ti (.read k buf)).write = false ∧ (start H ti (.read k buf)).buf = buf ∧ (start H ti (.read k buf)).pc = .top ∧
    (start H ti (.read k buf)).off = 0 ∧
    Pos (Files.lens files) (k * pl) (size pl (total (Files.lens files)) k) (start H ti (.read k buf)) := by
  obtain ⟨locs, h1, h2⟩ := h.locs k hk
  rw [covered_size] at h2
  unfold start startRead
  simp only
  rw [h1]
  exact ⟨rfl, rfl, rfl, rfl, h2, hb, by simp, by simp, by simp⟩

/-- the beginning of a call of `WritePiece` for an existing piece, with the right hash -/
theorem start_write {pl : Nat} {hashes : Bytes} {files : List EntryBase} {ti : TorInfo} (h : Accepted pl hashes files ti) (H : Bytes → Bytes) (k : Nat)
    (hk : k < ti.numPieces) (d spare : Bytes) (hh : H d = range hashes (20 * k) 20) (hb : size pl (total (Files.lens files)) k ≤ d.length) :
    (start H ti (.write k d spare)).write = true ∧ (start H ti (.write k d spare)).buf = d ++ spare ∧ (start H ti (.write k d spare)).pc = .top ∧
    (start H ti (.write k d spare)).off = 0 ∧
    Pos (Files.lens files) (k * pl) (size pl (total (Files.lens files)) k) (start H ti (.write k d spare)) := by
  obtain ⟨locs, h1, h2⟩ := h.locs k hk
  rw [covered_size] at h2
  unfold start startWrite
  simp only
  rw [h1, h.hash k hk]
  simp only
  rw [if_neg (by rw [hh]; simp)]
  exact ⟨rfl, rfl, rfl, rfl, h2, by simp only [List.length_append]; omega, by simp, by simp, by simp⟩

/-- a call that does anything: it reads an existing piece, or writes one with data of the recorded hash -/
def Acts (H : Bytes → Bytes) (hashes : Bytes) (np : Nat) : Call → Prop
  | .read i _ => ∃ k : Nat, i = k ∧ k < np
  | .write i d _ => ∃ k : Nat, i = k ∧ k < np ∧ H d = range hashes (20 * k) 20

/-- if the call does anything, the buffer has room for the piece, or the data is as long as the piece -/
def Roomy (H : Bytes → Bytes) (hashes : Bytes) (np pl N : Nat) : Call → Prop
  | .read i buf => ∀ k : Nat, i = k → k < np → size pl N k ≤ buf.length
  | .write i d _ => ∀ k : Nat, i = k → k < np → H d = range hashes (20 * k) 20 → size pl N k ≤ d.length

/-- a call that does nothing -/
theorem start_idle {pl : Nat} {hashes : Bytes} {files : List EntryBase} {ti : TorInfo} (h : Accepted pl hashes files ti) (H : Bytes → Bytes) (c : Call)
    (hc : ¬ Acts H hashes ti.numPieces c) : ∃ e, (start H ti c).pc = .done (.err e) := by
  cases c with
  | read i buf =>
    have hi : i < 0 ∨ i ≥ ti.numPieces := by
      apply Classical.byContradiction
      intro hn
      obtain ⟨k, rfl⟩ := Int.eq_ofNat_of_zero_le (show 0 ≤ i by omega)
      exact hc ⟨k, rfl, by omega⟩
    unfold start startRead
    simp only
    rw [C23_out_of_range ti i (by omega)]
    exact ⟨_, rfl⟩
  | write i d spare =>
    unfold start startWrite
    simp only
    by_cases hi : 0 ≤ i ∧ i < ti.numPieces
    · obtain ⟨k, rfl⟩ := Int.eq_ofNat_of_zero_le hi.1
      have hk : k < ti.numPieces := by omega
      obtain ⟨locs, h1, -⟩ := h.locs k hk
      rw [h1, h.hash k hk]
      simp only
      rw [if_pos (fun heq => hc ⟨k, rfl, hk, heq⟩)]
      exact ⟨_, rfl⟩
    · rw [C23_out_of_range ti i (by omega)]
      exact ⟨_, rfl⟩

/-- a call that does anything, whatever it is -/
theorem start_pos {pl : Nat} {hashes : Bytes} {files : List EntryBase} {ti : TorInfo} (h : Accepted pl hashes files ti) (H : Bytes → Bytes) (c : Call)
    (hc : Acts H hashes ti.numPieces c) (hz : Roomy H hashes ti.numPieces pl (total (Files.lens files)) c) :
    ∃ k, Pos (Files.lens files) (k * pl) (size pl (total (Files.lens files)) k) (start H ti c) ∧ (start H ti c).pc = .top ∧
      ((start H ti c).write = false ↔ ∃ i buf, c = .read i buf) := by
  cases c with
  | read i buf =>
    obtain ⟨k, rfl, hk⟩ := hc
    obtain ⟨h1, -, h3, -, h5⟩ := start_read h H k hk buf (hz k rfl hk)
    exact ⟨k, h5, h3, by simp [h1]⟩
  | write i d spare =>
    obtain ⟨k, rfl, hk, hh⟩ := hc
    obtain ⟨h1, -, h3, -, h5⟩ := start_write h H k hk d spare hh (hz k rfl hk hh)
    exact ⟨k, h5, h3, by simp [h1]⟩

/-- **C128**, reads.  Other programs change the files at any moments; system calls may fail.  A ReadPiece that has returned successfully has
delivered as many bytes as the piece has, each of which was in its place in the files at some moment after the call began; these moments
come in the order of the bytes.  The rest of the buffer is untouched. -/
theorem C128_read (H : Bytes → Bytes) (pl : Nat) (hashes : Bytes) (files : List EntryBase) (ti : TorInfo) (h : Accepted pl hashes files ti)
    (fs : FS.State) (calls : List Call) (faulty : Bool) (s0 s : St) (hr0 : Reach (Step (openedAll ti) faulty) (init H ti fs calls) s0)
    (hr : Reach (Step (openedAll ti) faulty) s0 s) (j : Nat) (i : Int) (buf : Bytes) (t : Th) (n : Nat)
    (hz : Roomy H hashes ti.numPieces pl (total (Files.lens files)) (.read i buf))
    (hj0 : s0.st.ths[j]? = some (start H ti (.read i buf))) (hj : s.st.ths[j]? = some t) (hpc : t.pc = .done (.ok n)) :
    ∃ k : Nat, i = k ∧ k < ti.numPieces ∧ n = size pl (total (Files.lens files)) k ∧ t.buf.drop n = buf.drop n ∧
      InOrder s.past (s0.past.length - 1) n fun fs' o => ∃ v, t.buf[o]? = some v ∧ ByteAt files fs' (k * pl + o) v := by
  obtain ⟨hb, hop⟩ := accepted_base h
  have hp0 := past_last (s0 := init H ti fs calls) ⟨[], rfl⟩ hr0
  have hlen : s0.past.length - 1 < s0.past.length := by obtain ⟨p, hp⟩ := hp0; rw [hp]; simp
  by_cases ha : Acts H hashes ti.numPieces (.read i buf)
  · obtain ⟨k, rfl, hk⟩ := ha
    obtain ⟨h1, h2, h3, h4, h5⟩ := start_read h H k hk buf (hz k rfl hk)
    obtain ⟨-, g⟩ := along (P := RInv files (s0.past.length - 1) (k * pl) (size pl (total (Files.lens files)) k) buf) hp0 hlen hr
      (by
        intro u hu
        rw [hj0] at hu; cases hu
        exact ⟨h1, h5, by rw [h2], fun _ => 0, by simp, by intro o ho; unfold prog at ho; rw [h3] at ho; simp only at ho; omega⟩)
      (fun past fs t q => ⟨q.wr, q.pos, q.rest, q.got.append _⟩)
      (fun past p s s' t t' q e1 e2 st => q.step hb hop e1 e2 st)
    have g := g t hj
    rcases g.pos.fin _ hpc with ⟨e, he⟩ | ⟨he, ho⟩
    · cases he
    · cases he
      have : prog t = size pl (total (Files.lens files)) k := by unfold prog; rw [hpc]; exact ho
      have hg := g.got
      rw [this] at hg
      exact ⟨k, rfl, hk, rfl, g.rest, hg⟩
  · obtain ⟨e, he⟩ := start_idle h H _ ha
    obtain ⟨-, g⟩ := along (P := fun _ t => t.pc = .done (.err e)) hp0 hlen hr (by intro u hu; rw [hj0] at hu; cases hu; exact he) (fun _ _ _ q => q)
      (fun past p s s' t t' q e1 e2 st => absurd q (by intro q'; cases st <;> simp_all))
    rw [g t hj] at hpc; cases hpc

/-- **C128**, writes.  A WritePiece that has returned successfully has had the recorded hash for its data, and each byte of the piece was at its
place in the files at some moment after the call began, in the order of the bytes (other programs may have changed it since). -/
theorem C128_write (H : Bytes → Bytes) (pl : Nat) (hashes : Bytes) (files : List EntryBase) (ti : TorInfo) (h : Accepted pl hashes files ti)
    (fs : FS.State) (calls : List Call) (faulty : Bool) (s0 s : St) (hr0 : Reach (Step (openedAll ti) faulty) (init H ti fs calls) s0)
    (hr : Reach (Step (openedAll ti) faulty) s0 s) (j : Nat) (i : Int) (d spare : Bytes) (t : Th) (n : Nat)
    (hz : Roomy H hashes ti.numPieces pl (total (Files.lens files)) (.write i d spare))
    (hj0 : s0.st.ths[j]? = some (start H ti (.write i d spare))) (hj : s.st.ths[j]? = some t) (hpc : t.pc = .done (.ok n)) :
    ∃ k : Nat, i = k ∧ k < ti.numPieces ∧ H d = range hashes (20 * k) 20 ∧ n = size pl (total (Files.lens files)) k ∧
      InOrder s.past (s0.past.length - 1) n fun fs' o => ∃ v, d[o]? = some v ∧ ByteAt files fs' (k * pl + o) v := by
  obtain ⟨hb, hop⟩ := accepted_base h
  have hp0 := past_last (s0 := init H ti fs calls) ⟨[], rfl⟩ hr0
  have hlen : s0.past.length - 1 < s0.past.length := by obtain ⟨p, hp⟩ := hp0; rw [hp]; simp
  by_cases ha : Acts H hashes ti.numPieces (.write i d spare)
  · obtain ⟨k, rfl, hk, hh⟩ := ha
    obtain ⟨h1, h2, h3, h4, h5⟩ := start_write h H k hk d spare hh (hz k rfl hk hh)
    obtain ⟨-, g⟩ := along (P := WInv files (s0.past.length - 1) (k * pl) (size pl (total (Files.lens files)) k) (d ++ spare)) hp0 hlen hr
      (by
        intro u hu
        rw [hj0] at hu; cases hu
        exact ⟨h1, h5, h2, fun _ => 0, by simp, by intro o ho; unfold prog at ho; rw [h3] at ho; simp only at ho; omega⟩)
      (fun past fs t q => ⟨q.wr, q.pos, q.data, q.put.append _⟩)
      (fun past p s s' t t' q e1 e2 st => q.step hb hop e1 e2 st)
    have g := g t hj
    rcases g.pos.fin _ hpc with ⟨e, he⟩ | ⟨he, ho⟩
    · cases he
    · cases he
      have : prog t = size pl (total (Files.lens files)) k := by unfold prog; rw [hpc]; exact ho
      have hg := g.put
      rw [this] at hg
      refine ⟨k, rfl, hk, hh, rfl, hg.mono (Nat.le_refl _) ?_⟩
      rintro fs' o ho' ⟨v, v1, v2⟩
      have := hz k rfl hk hh
      rw [List.getElem?_append_left (by omega)] at v1
      exact ⟨v, v1, v2⟩
  · obtain ⟨e, he⟩ := start_idle h H _ ha
    obtain ⟨-, g⟩ := along (P := fun _ t => t.pc = .done (.err e)) hp0 hlen hr (by intro u hu; rw [hj0] at hu; cases hu; exact he) (fun _ _ _ q => q)
      (fun past p s s' t t' q e1 e2 st => absurd q (by intro q'; cases st <;> simp_all))
    rw [g t hj] at hpc; cases hpc

/-- at some moment from `lo` on, a file of the torrent was unusable, or, for reads, shorter than the torrent says -/
def Damaged (files : List EntryBase) (past : List FS.State) (lo : Nat) (c : Call) : Prop :=
  ∃ (m : Nat) (fs : FS.State) (f : EntryBase), lo ≤ m ∧ past[m]? = some fs ∧ f ∈ files ∧
    (fs f.localPath = none ∨ (∃ i buf, c = .read i buf) ∧ ∃ x, fs f.localPath = some x ∧ x.length < f.length.toNat)

/-- **C128**, results: whatever other programs do to the files, a call returns the number of bytes or an error; nothing panics.  A call that
does anything returns an error only if a system call failed or a file was damaged in the meantime. -/
theorem C128_results (H : Bytes → Bytes) (pl : Nat) (hashes : Bytes) (files : List EntryBase) (ti : TorInfo) (h : Accepted pl hashes files ti)
    (fs : FS.State) (calls : List Call) (faulty : Bool) (s0 s : St) (hr0 : Reach (Step (openedAll ti) faulty) (init H ti fs calls) s0)
    (hr : Reach (Step (openedAll ti) faulty) s0 s) (j : Nat) (c : Call) (t : Th) (r : Res Nat)
    (hz : Roomy H hashes ti.numPieces pl (total (Files.lens files)) c)
    (hj0 : s0.st.ths[j]? = some (start H ti c)) (hj : s.st.ths[j]? = some t) (hpc : t.pc = .done r) :
    (∃ n, r = .ok n ∧ Acts H hashes ti.numPieces c) ∨
    ∃ e, r = .err e ∧ (Acts H hashes ti.numPieces c → faulty = true ∨ Damaged files s.past (s0.past.length - 1) c) := by
  obtain ⟨hb, hop⟩ := accepted_base h
  have hp0 := past_last (s0 := init H ti fs calls) ⟨[], rfl⟩ hr0
  have hlen : s0.past.length - 1 < s0.past.length := by obtain ⟨p, hp⟩ := hp0; rw [hp]; simp
  by_cases ha : Acts H hashes ti.numPieces c
  · obtain ⟨k, h1, h2, h3⟩ := start_pos h H c ha hz
    obtain ⟨-, g⟩ := along (P := fun past t => t.write = (start H ti c).write ∧
        Pos (Files.lens files) (k * pl) (size pl (total (Files.lens files)) k) t ∧
        ∀ e, t.pc = .done (.err e) → faulty = true ∨ Damaged files past (s0.past.length - 1) c) hp0 hlen hr
      (by
        intro u hu
        rw [hj0] at hu; cases hu
        exact ⟨rfl, h1, by intro e he; rw [h2] at he; cases he⟩)
      (by
        rintro past fs t ⟨q1, q2, q3⟩
        refine ⟨q1, q2, fun e he => (q3 e he).imp id ?_⟩
        rintro ⟨m, fs', f, d1, d2, d3⟩
        exact ⟨m, fs', f, d1, by rw [List.getElem?_append_left (List.getElem?_eq_some_iff.mp d2).1]; exact d2, d3⟩)
      (by
        rintro past p s s' t t' ⟨q1, q2, q3⟩ e1 e2 st
        obtain ⟨p1, p2, p3⟩ := eff hb hop q2 st
        refine ⟨by rw [p2, q1], p1, ?_⟩
        intro e he
        cases p3 with
        | quiet g2 g3 g4 g5 =>
          refine (g5 e he).imp id ?_
          rintro ⟨k', f, f1, f2⟩
          refine ⟨p.length, s.fs, f, by rw [e1, List.length_append] at e2; simp at e2; omega, ?_, List.mem_of_getElem? f1, f2.imp id ?_⟩
          · rw [e1]; simp
          · rintro ⟨f3, f4⟩
            exact ⟨h3.mp (by rw [← q1]; exact f3), f4⟩
        | got m k x f c hw g2 g4 g5 hf hc g6 g7 g8 g3 g9 => exact absurd he (g9 _)
        | put m k x f c hw g3 g4 g5 hm hf g6 g7 g2 g9 => exact absurd he (g9 _))
    obtain ⟨-, g2, g3⟩ := g t hj
    rcases g2.fin _ hpc with ⟨e, rfl⟩ | ⟨rfl, -⟩
    · exact .inr ⟨e, rfl, fun _ => g3 e hpc⟩
    · exact .inl ⟨_, rfl, ha⟩
  · obtain ⟨e, he⟩ := start_idle h H _ ha
    obtain ⟨-, g⟩ := along (P := fun _ t => t.pc = .done (.err e)) hp0 hlen hr (by intro u hu; rw [hj0] at hu; cases hu; exact he) (fun _ _ _ q => q)
      (fun past p s s' t t' q e1 e2 st => absurd q (by intro q'; cases st <;> simp_all))
    rw [g t hj] at hpc; cases hpc
    exact .inr ⟨e, rfl, fun hA => absurd hA ha⟩

/-- **C128**, the calls return: at every moment, either all calls have returned or one of the goroutines can go on; the number of steps they make
together is bounded, whatever other programs do, by a number that depends on the torrent and the calls alone; and if the others leave the
files alone from some moment on, all calls return. -/
theorem C128_return (H : Bytes → Bytes) (fio : FileIO) (ti : TorInfo) (calls : List Call) :
    ∃ B, ∀ (faulty : Bool) (fs : FS.State) (s : St), Reach (Step fio faulty) (init H ti fs calls) s →
      s.steps ≤ B ∧ (AllDone s.st ∨ ∃ st', FileConc.Step fio faulty s.st st') ∧ Inevitable (FileConc.Step fio faulty) AllDone s.st := by
  refine ⟨(init H ti (fun _ => none) calls).st.measure, ?_⟩
  intro faulty fs s hr
  obtain ⟨h1, h2⟩ := linv_reach H hr
  have hm : (init H ti fs calls).st.measure = (init H ti (fun _ => none) calls).st.measure := rfl
  refine ⟨by omega, ?_, h1.inevitable⟩
  cases h1.inevitable (faulty := faulty) with
  | now _ h => exact .inl h
  | next _ hex _ => exact .inr hex

/-! ### A torrent with one file of two bytes -/

/-- the file -/
def oneFiles : List EntryBase := [MakeFileEntry (ascii "a") 2]

/-- the disk with contents `c` -/
def oneDisk (c : Bytes) : FS.State := fun p => if p = ascii "a" then some c else none

/-- the torrent with piece length 2 -/
def oneTi (hash : Bytes) : TorInfo := ⟨ascii "t", 2, hash, 1, 2, [⟨MakeFileEntry (ascii "a") 2, 0, 0, 0, 1⟩], true, [[⟨0, 0, 2⟩]], 2⟩

theorem oneTi_accepted (hash : Bytes) (h : hash.length = 20) : Accepted 2 hash oneFiles (oneTi hash) := by
  refine ⟨by decide, ?_, ascii "t", ?_⟩
  · intro f hf
    simp only [oneFiles, List.mem_cons, List.mem_nil_iff, or_false] at hf
    subst hf; decide
  · unfold NewTorInfo oneTi
    rw [h]
    rfl

/-- **C128**, what is delivered need never have been in the files: for all bytes, if the file has been `x y` and another program writes `u w` at
the right moment, then `x w` is delivered.  At every moment the file was one or the other. -/
theorem C128_torn (H : Bytes → Bytes) (hash : Bytes) (hl : hash.length = 20) (x y u w : UInt8) (buf : Bytes) (hb : buf.length = 2) :
    Accepted 2 hash oneFiles (oneTi hash) ∧
    ∃ s t, Reach (Step (openedAll (oneTi hash)) false) (init H (oneTi hash) (oneDisk [x, y]) [.read 0 buf]) s ∧ s.st.ths[0]? = some t ∧
      t.pc = .done (.ok 2) ∧ t.buf = [x, w] ∧ ∀ fs ∈ s.past, fs = oneDisk [x, y] ∨ fs = oneDisk [u, w] := by
  refine ⟨oneTi_accepted hash hl, ?_⟩
  obtain ⟨b0, b1, rfl⟩ : ∃ b0 b1, buf = [b0, b1] := by
    match buf, hb with
    | [b0, b1], _ => exact ⟨b0, b1, rfl⟩
  have ea : (openedAll (oneTi hash)).torInfo.flist[0]? = some ⟨MakeFileEntry (ascii "a") 2, 0, 0, 0, 1⟩ := rfl
  have oa : (MakeFileEntry (ascii "a") 2).localPath ∈ (openedAll (oneTi hash)).opened := List.mem_cons_self ..
  have r0 : Reach (Step (openedAll (oneTi hash)) false) (init H (oneTi hash) (oneDisk [x, y]) [.read 0 [b0, b1]])
      ⟨⟨⟨oneDisk [x, y], fun _ => 0, fun _ => false⟩, [⟨false, [b0, b1], [⟨0, 0, 2⟩], 0, .top⟩]⟩, [oneDisk [x, y]], 0⟩ := .refl
  have r1 := r0.tail _ _ (.work _ _ (.mk _ 0 _ _ _ rfl (.rlock _ _ _ _ _ rfl rfl ⟨by decide, by simp⟩ ea oa rfl rfl)))
  have r2 := r1.tail _ _ (.work _ _ (.mk _ 0 _ _ _ rfl (.get _ _ _ _ _ 0 1 [x, y] rfl rfl ea rfl rfl (by decide) (by decide) (by decide) (by simp))))
  have r3 := r2.tail _ _ (.other _ (oneDisk [u, w]))
  have r4 := r3.tail _ _ (.work _ _ (.mk _ 0 _ _ _ rfl (.get _ _ _ _ _ 1 1 [u, w] rfl rfl ea rfl rfl (by decide) (by decide) (by decide) (by simp))))
  have r5 := r4.tail _ _ (.work _ _ (.mk _ 0 _ _ _ rfl (.release _ _ _ _ _ 2 [u, w] rfl rfl ea rfl (by decide) (by decide))))
  have r6 := r5.tail _ _ (.work _ _ (.mk _ 0 _ _ _ rfl (.finish _ _ rfl rfl)))
  refine ⟨_, _, r6, rfl, rfl, rfl, ?_⟩
  intro fs hfs
  simp [Shared.rlock, Shared.release, Shared.runlock] at hfs
  exact hfs

/-- a hash function for the examples -/
def exH : Bytes → Bytes := fun _ => List.replicate 20 0

/-- C128_read and C128_return apply to such an execution. -/
example : ∃ s : St, (InOrder s.past 0 2 fun fs' o => ∃ v, ([1, 4] : Bytes)[o]? = some v ∧ ByteAt oneFiles fs' o v) ∧
    Inevitable (FileConc.Step (openedAll (oneTi (exH []))) false) AllDone s.st := by
  obtain ⟨h, s, t, hr, hj, hpc, hb, -⟩ := C128_torn exH (exH []) rfl 1 2 3 4 [0, 0] rfl
  obtain ⟨k, hk, -, -, -, g⟩ := C128_read exH 2 _ oneFiles _ h _ _ false _ s .refl hr 0 0 [0, 0] t 2
    (by intro k hk _; have : k = 0 := by omega
        subst this; decide) rfl hj hpc
  have : k = 0 := by omega
  subst this
  obtain ⟨B, hB⟩ := C128_return exH (openedAll (oneTi (exH []))) (oneTi (exH [])) [.read 0 [0, 0]]
  refine ⟨s, ?_, (hB false _ s hr).2.2⟩
  rw [hb] at g
  refine g.mono (Nat.le_refl _) ?_
  rintro fs o _ ⟨v, v1, v2⟩
  exact ⟨v, v1, by simpa using v2⟩

/-- C128_write and C128_results: a piece is written into a file that others make empty in the meantime; reading it then fails. -/
example : ∃ s : St, (InOrder s.past 0 2 fun fs' o => ∃ v, ([5, 6] : Bytes)[o]? = some v ∧ ByteAt oneFiles fs' o v) ∧
    Damaged oneFiles s.past 0 (.read 0 [0, 0]) ∧ s.st.sh.fs (ascii "a") = some [] := by
  have h := oneTi_accepted (exH []) rfl
  have ea : (openedAll (oneTi (exH []))).torInfo.flist[0]? = some ⟨MakeFileEntry (ascii "a") 2, 0, 0, 0, 1⟩ := rfl
  have oa : (MakeFileEntry (ascii "a") 2).localPath ∈ (openedAll (oneTi (exH []))).opened := List.mem_cons_self ..
  have r0 : Reach (Step (openedAll (oneTi (exH []))) false)
      (init exH (oneTi (exH [])) (oneDisk [1, 2]) [.write 0 [5, 6] [], .read 0 [0, 0]])
      ⟨⟨⟨oneDisk [1, 2], fun _ => 0, fun _ => false⟩, [⟨true, [5, 6], [⟨0, 0, 2⟩], 0, .top⟩, ⟨false, [0, 0], [⟨0, 0, 2⟩], 0, .top⟩]⟩,
        [oneDisk [1, 2]], 0⟩ := .refl
  have r1 := r0.tail _ _ (.work _ _ (.mk _ 0 _ _ _ rfl (.announce _ _ _ _ _ rfl rfl ⟨by decide, by decide⟩ ea oa rfl rfl)))
  have r2 := r1.tail _ _ (.work _ _ (.mk _ 0 _ _ _ rfl (.lock _ _ _ _ _ rfl rfl ea rfl)))
  have r3 := r2.tail _ _ (.work _ _ (.mk _ 0 _ _ _ rfl (.put _ _ _ _ _ 0 1 [1, 2] rfl rfl ea rfl rfl (by decide) (by decide) (by decide))))
  have r4 := r3.tail _ _ (.other _ (oneDisk []))
  have r5 := r4.tail _ _ (.work _ _ (.mk _ 0 _ _ _ rfl (.put _ _ _ _ _ 1 1 [] rfl rfl ea rfl rfl (by decide) (by decide) (by decide))))
  have r6 := r5.tail _ _ (.work _ _ (.mk _ 0 _ _ _ rfl (.release _ _ _ _ _ 2 [0, 6] rfl rfl ea rfl (by decide) (by decide))))
  have r7 := r6.tail _ _ (.work _ _ (.mk _ 0 _ _ _ rfl (.finish _ _ rfl rfl)))
  have r8 := r7.tail _ _ (.other _ (oneDisk []))
  have r9 := r8.tail _ _ (.work _ _ (.mk _ 1 _ _ _ rfl (.rlock _ _ _ _ _ rfl rfl ⟨by decide, by decide⟩ ea oa rfl rfl)))
  have r10 := r9.tail _ _ (.work _ _ (.mk _ 1 _ _ _ rfl (.eof _ _ _ _ _ 0 [] rfl rfl ea rfl rfl (by decide) (by decide) (by decide))))
  have key := C128_results exH 2 _ oneFiles _ h _ _ false _ _ .refl r10 1 (.read 0 [0, 0]) _ _
      (by intro k hk _; have : k = 0 := by omega
          subst this; decide) rfl rfl rfl
  have keyw := C128_write exH 2 _ oneFiles _ h _ _ false _ _ .refl r10 0 0 [5, 6] [] _ 2
      (by intro k hk _ _; have : k = 0 := by omega
          subst this; decide) rfl rfl rfl
  refine ⟨_, ?_, (key.resolve_left (by rintro ⟨n, h1, -⟩; cases h1)).elim (fun e he => (he.2 ⟨0, rfl, by decide⟩).resolve_left (by decide)), rfl⟩
  · obtain ⟨k, hk, -, -, -, g⟩ := keyw
    have : k = 0 := by omega
    subst this
    refine g.mono (Nat.le_refl _) ?_
    rintro fs o _ ⟨v, v1, v2⟩
    exact ⟨v, v1, by simpa using v2⟩

end Verif.FileEnv
