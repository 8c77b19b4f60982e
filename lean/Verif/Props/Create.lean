import Verif.Lemmas.Create
import Verif.Model.Swarm
import Verif.Props.FileIO
import Verif.Props.Bitfield
/-
C30, C31: creating torrents and validating files at start-up.
-/
set_option autoImplicit false

namespace Verif.Create
open Verif.Files Verif.FS Verif.Path Verif.Utils Verif.Layout Verif.FileIO Verif.Swarm Verif.Bf Verif.Bits

theorem fileListLoop_base (pl i o : Int) (es : List EntryBase) : (fileListLoop pl i o es).map Entry.base = es := by
  induction es generalizing i o with
  | nil => rfl
  | cons e es ih => simp [fileListLoop, ih]

theorem makeFileList_base {es : List EntryBase} {pl : Int} {fl : List Entry} (h : MakeFileList es pl = .ok fl) :
    fl.map Entry.base = es := by
  unfold MakeFileList at h
  split at h
  · cases h
  · cases h; exact fileListLoop_base ..

/-- the contents of the files with these paths, below `dir` -/
def Contents (fs : State) (dir : Bytes) (paths cs : List Bytes) : Prop :=
  paths.map (fun p => fs (Join dir p)) = cs.map some

/-- what a created torrent should be -/
structure Describes (H : Bytes → Bytes) (dir : Bytes) (paths cs : List Bytes) (name : Bytes) (pl : Nat) (ti : TorInfo) : Prop where
  name : ti.name = name
  pieceLen : ti.pieceLen = pl
  hashes : ti.hashes = pieceHashes H cs.flatten pl
  numPieces : ti.numPieces = needed cs.flatten.length pl
  length : ti.length = cs.flatten.length
  files : ti.flist.map (fun e => (e.base.torPath, e.base.localPath, e.base.length)) =
    List.zipWith (fun p c => (p, Join dir p, (c.length : Int))) paths cs

theorem bufSize_eq (pl : Nat) : maxBuf.tdiv pl * pl = ((5242880 / pl * pl : Nat) : Int) := rfl

theorem entries_lens (wd : Bytes) : ∀ (paths cs : List Bytes), paths.length = cs.length →
    lens (List.zipWith (entryFor wd) paths cs) = cs.map List.length
  | [], [], _ => rfl
  | [], _ :: _, h => by cases h
  | _ :: _, [], h => by cases h
  | p :: ps, c :: cs, h => by
    have := entries_lens wd ps cs (by simpa using h)
    unfold lens at this ⊢
    simp only [List.zipWith_cons_cons, List.map_cons, this]
    rfl

theorem sum_lens : ∀ cs : List Bytes, ((cs.map List.length).sum) = cs.flatten.length
  | [] => rfl
  | c :: cs => by rw [List.map_cons, List.sum_cons, sum_lens cs, List.flatten_cons, List.length_append]

theorem sum_entry_lengths (wd : Bytes) : ∀ (paths cs : List Bytes), paths.length = cs.length →
    ((List.zipWith (entryFor wd) paths cs).map EntryBase.length).sum = (cs.flatten.length : Int)
  | [], [], _ => rfl
  | [], _ :: _, h => by cases h
  | _ :: _, [], h => by cases h
  | p :: ps, c :: cs, h => by
    have := sum_entry_lengths wd ps cs (by simpa using h)
    simp only [List.zipWith_cons_cons, List.map_cons, List.sum_cons, this, List.flatten_cons, List.length_append]
    simp [entryFor, MakeFileEntry, EntryBase.SetLocalPath]

theorem entries_nonneg (wd : Bytes) (paths cs : List Bytes) : ∀ f ∈ List.zipWith (entryFor wd) paths cs, 0 ≤ f.length := by
  intro f hf
  obtain ⟨i, hi, rfl⟩ := List.getElem_of_mem hf
  rw [List.getElem_zipWith]
  exact Int.natCast_nonneg _

theorem entries_triples (dir : Bytes) (paths cs : List Bytes) :
    (List.zipWith (entryFor dir) paths cs).map (fun f => (f.torPath, f.localPath, f.length)) =
    List.zipWith (fun p (c : Bytes) => (p, Join dir p, (c.length : Int))) paths cs := by
  rw [List.map_zipWith]; rfl

/-- the torrent made from the collected entries and hashes -/
theorem newTorInfo_created (H : Bytes → Bytes) (hH : ∀ x, (H x).length = 20) (dir : Bytes) (paths cs : List Bytes)
    (name : Bytes) (pl : Nat) (hpl : 0 < pl) (hlen : paths.length = cs.length) :
    ∃ ti, NewTorInfo name pl (pieceHashes H cs.flatten pl) (List.zipWith (entryFor dir) paths cs) = .ok ti ∧
      Describes H dir paths cs name pl ti := by
  have hl : total (lens (List.zipWith (entryFor dir) paths cs)) = cs.flatten.length := by
    rw [entries_lens dir _ _ hlen]; exact sum_lens cs
  have hph := pieceHashes_length H hH cs.flatten pl
  obtain ⟨ti, hti⟩ := (C24_accept_iff_partial name pl hpl (pieceHashes H cs.flatten pl) _ (entries_nonneg dir paths cs)).mpr
    ⟨by rw [hph]; exact ⟨_, rfl⟩, by rw [hl, hph]; omega⟩
  obtain ⟨f1, f2, f3, f4, f5, f6, f7⟩ := C24_fields _ _ _ _ _ hti
  refine ⟨ti, hti, f1, f2, f3, ?_, ?_, ?_⟩
  · omega
  · rw [f5, sum_entry_lengths dir _ _ hlen]
  · rw [← entries_triples, ← makeFileList_base f7, List.map_map]; rfl

/-- **C30** (piece lengths up to 5 MiB): if all files exist and no read fails, `CreateTorInfo` succeeds for every way in which
the operating system splits the reads, provided it may make enough of them (one more than there are bytes in each file).
Missing: piece lengths above 5 MiB, see `C30_refuted_large_pieces`. -/
theorem C30_succeeds_partial (H : Bytes → Bytes) (hH : ∀ x, (H x).length = 20) (reads : Nat → Option Nat) (fs : State)
    (fuel : Nat) (paths : List Bytes) (wd name : Bytes) (pl : Nat) (hpl : 0 < pl) (hmax : pl ≤ 5 * 1024 * 1024)
    (cs : List Bytes) (hcs : Contents fs (filesDir paths wd name) paths cs) (hr : ∀ t, (reads t).isSome)
    (hf : ∀ c ∈ cs, c.length < fuel) :
    ∃ ti, CreateTorInfo H reads fs fuel paths wd name pl = .ok ti ∧
      Describes H (filesDir paths wd name) paths cs name pl ti := by
  have hb : 0 < 5242880 / pl * pl := Nat.mul_pos (Nat.div_pos (by omega) hpl) hpl
  have hd : pl ∣ 5242880 / pl * pl := ⟨_, Nat.mul_comm _ _⟩
  obtain ⟨l1, -, l3⟩ := fileLoop_spec H reads fs (filesDir paths wd name) pl (5242880 / pl * pl) hpl hb hd fuel paths []
    ⟨0, [], []⟩ [] ⟨[], rfl, ⟨0, rfl⟩, (pieceHashes_nil H pl hpl).symm, hb⟩
  obtain ⟨⟨fes, st⟩, hfl⟩ := l3 cs hcs hr hf
  obtain ⟨cs', e1, e2, S0, e3, e4, e5, e6⟩ := l1 fes st hfl
  have hcc : cs' = cs := by
    unfold Contents at hcs
    rw [hcs] at e1
    exact (List.map_inj_right (fun a b h => Option.some.inj h)).mp e1.symm
  subst hcc
  have hlen : paths.length = cs'.length := by have := congrArg List.length hcs; simpa using this
  obtain ⟨segs, s1, s2⟩ := segment_hash H st.acc pl hpl
  obtain ⟨ti, t1, t2⟩ := newTorInfo_created H hH (filesDir paths wd name) paths cs' name pl hpl hlen
  refine ⟨ti, ?_, t2⟩
  unfold CreateTorInfo
  rw [baseDir_eq]
  rw [if_neg (by omega), bufSize_eq, hfl]
  simp only [Res.ok_bind]
  rw [s1]
  simp only [Res.ok_bind]
  rw [s2, e5, ← pieceHashes_append H _ _ _ hpl e4, ← e3, List.nil_append, e2, List.nil_append]
  exact t1

theorem created_made (H : Bytes → Bytes) (reads : Nat → Option Nat)
    (fs : State) (fuel : Nat) (paths : List Bytes) (wd name : Bytes) (pl : Nat) (hpl : 0 < pl)
    (hmax : pl ≤ 5 * 1024 * 1024) :
    (∀ ti, CreateTorInfo H reads fs fuel paths wd name pl = .ok ti →
      ∃ cs, Contents fs (filesDir paths wd name) paths cs ∧
        NewTorInfo name pl (pieceHashes H cs.flatten pl) (List.zipWith (entryFor (filesDir paths wd name)) paths cs) = .ok ti) ∧
    ((∀ x, (H x).length = 20) → CreateTorInfo H reads fs fuel paths wd name pl ≠ .panic) := by
  have hb : 0 < 5242880 / pl * pl := Nat.mul_pos (Nat.div_pos (by omega) hpl) hpl
  have hd : pl ∣ 5242880 / pl * pl := ⟨_, Nat.mul_comm _ _⟩
  obtain ⟨l1, l2, -⟩ := fileLoop_spec H reads fs (filesDir paths wd name) pl (5242880 / pl * pl) hpl hb hd fuel paths []
    ⟨0, [], []⟩ [] ⟨[], rfl, ⟨0, rfl⟩, (pieceHashes_nil H pl hpl).symm, hb⟩
  unfold CreateTorInfo
  rw [baseDir_eq]
  rw [if_neg (by omega), bufSize_eq]
  cases hfl : fileLoop H reads fs (filesDir paths wd name) pl ((5242880 / pl * pl : Nat) : Int) fuel paths [] ⟨0, [], []⟩ with
  | err e => exact ⟨fun _ h => (by cases h), fun _ h => (by cases h)⟩
  | timeout => exact ⟨fun _ h => (by cases h), fun _ h => (by cases h)⟩
  | panic => exact absurd hfl l2
  | ok r =>
    obtain ⟨fes, st⟩ := r
    obtain ⟨cs, e1, e2, S0, e3, e4, e5, e6⟩ := l1 fes st hfl
    have hlen : paths.length = cs.length := by have := congrArg List.length e1; simpa using this
    obtain ⟨segs, s1, s2⟩ := segment_hash H st.acc pl hpl
    simp only [Res.ok_bind]
    rw [s1]
    simp only [Res.ok_bind]
    rw [s2, e5, ← pieceHashes_append H _ _ _ hpl e4, ← e3, List.nil_append, e2, List.nil_append]
    refine ⟨fun ti h => ⟨cs, e1, h⟩, fun hH h => ?_⟩
    obtain ⟨ti, t1, t2⟩ := newTorInfo_created H hH (filesDir paths wd name) paths cs name pl hpl hlen
    rw [t1] at h
    cases h

/-- **C30** (piece lengths up to 5 MiB): whenever `CreateTorInfo` succeeds – whatever the reads do – every file exists and
the torrent describes their contents; and it never panics, so a missing file or a failing read gives an error. -/
theorem C30_only_right_hashes_partial (H : Bytes → Bytes) (hH : ∀ x, (H x).length = 20) (reads : Nat → Option Nat)
    (fs : State) (fuel : Nat) (paths : List Bytes) (wd name : Bytes) (pl : Nat) (hpl : 0 < pl)
    (hmax : pl ≤ 5 * 1024 * 1024) :
    (∀ ti, CreateTorInfo H reads fs fuel paths wd name pl = .ok ti →
      ∃ cs, Contents fs (filesDir paths wd name) paths cs ∧ Describes H (filesDir paths wd name) paths cs name pl ti) ∧
    CreateTorInfo H reads fs fuel paths wd name pl ≠ .panic := by
  obtain ⟨h1, h2⟩ := created_made H reads fs fuel paths wd name pl hpl hmax
  refine ⟨fun ti hti => ?_, h2 hH⟩
  obtain ⟨cs, hc, hm⟩ := h1 ti hti
  have hlen : paths.length = cs.length := by have := congrArg List.length hc; simpa using this
  obtain ⟨ti', t1, t2⟩ := newTorInfo_created H hH (filesDir paths wd name) paths cs name pl hpl hlen
  rw [t1] at hm
  cases hm
  exact ⟨cs, hc, t2⟩

/-- three files, one of them empty; the hash is the first 20 bytes, padded -/
def exFs : State := fun p =>
  if p = ascii "/w/t/a" then some [1, 2, 3, 4, 5] else if p = ascii "/w/t/b" then some []
  else if p = ascii "/w/t/d/c" then some [6, 7, 8] else none

example : ∀ reads : Nat → Option Nat, (∀ t, (reads t).isSome) →
    ∃ ti, CreateTorInfo exH reads exFs 6 [ascii "a", ascii "b", ascii "d/c"] (ascii "/w") (ascii "t") 3 = .ok ti ∧
      ti.hashes = exH [1, 2, 3] ++ exH [4, 5, 6] ++ exH [7, 8] := by
  intro reads hr
  obtain ⟨ti, h1, h2⟩ := C30_succeeds_partial exH (by intro x; simp [exH]) reads exFs 6
    [ascii "a", ascii "b", ascii "d/c"] (ascii "/w") (ascii "t") 3 (by decide) (by decide)
    [[1, 2, 3, 4, 5], [], [6, 7, 8]] (by unfold Contents; decide +kernel) hr (by decide)
  refine ⟨ti, h1, ?_⟩
  rw [h2.hashes]
  decide +kernel

/-- for a piece length above 5 MiB the buffer has size 0 and the loop over the first file never ends -/
theorem readFile_stuck (H : Bytes → Bytes) (reads : Nat → Option Nat) (hr : ∀ t, (reads t).isSome) (pl : Nat) (hpl : 0 < pl)
    (fuel : Nat) (rest : Bytes) (st : St) (ha : st.acc = []) : readFile H reads pl 0 fuel rest st = .timeout := by
  induction fuel generalizing st with
  | zero => rfl
  | succ fuel ih =>
    unfold readFile
    have := hr st.t
    cases hn : reads st.t with
    | none => rw [hn] at this; cases this
    | some n =>
      simp only
      rw [if_pos (by rw [ha]; rfl)]
      obtain ⟨segs, s1, -⟩ := C59_segments st.acc pl hpl
      rw [s1]
      exact ih _ rfl

/-- **C30** fails for every piece length above 5 MiB: however many reads are allowed, and although every file exists and no
read fails, `CreateTorInfo` does not finish. -/
theorem C30_refuted_large_pieces (H : Bytes → Bytes) (reads : Nat → Option Nat) (hr : ∀ t, (reads t).isSome) (fs : State)
    (fuel : Nat) (path : Bytes) (paths : List Bytes) (wd name : Bytes) (pl : Nat) (hpl : 5 * 1024 * 1024 < pl) (c : Bytes)
    (hc : fs (Join (filesDir (path :: paths) wd name) path) = some c) :
    CreateTorInfo H reads fs fuel (path :: paths) wd name pl = .timeout := by
  unfold CreateTorInfo
  rw [baseDir_eq]
  rw [if_neg (by omega), bufSize_eq, Nat.div_eq_of_lt (by omega), Nat.zero_mul]
  unfold fileLoop
  rw [hc]
  have := readFile_stuck H reads hr pl (by omega) fuel c ⟨0, [], []⟩ rfl
  simp only
  rw [show (((0 : Nat) : Int)) = 0 from rfl, this]
  rfl

example : ∀ fuel, CreateTorInfo exH (fun _ => some 4096) exFs fuel [ascii "a", ascii "b"] (ascii "/w") (ascii "t")
    (8 * 1024 * 1024 : Nat) = .timeout := fun fuel =>
  C30_refuted_large_pieces exH _ (fun _ => rfl) exFs fuel (ascii "a") [ascii "b"] (ascii "/w") (ascii "t") _
    (by decide) [1, 2, 3, 4, 5] (by decide +kernel)

/-- piece length 0 is a division by zero -/
theorem C30_refuted_zero (H : Bytes → Bytes) (reads : Nat → Option Nat) (fs : State) (fuel : Nat) (paths : List Bytes)
    (wd name : Bytes) : CreateTorInfo H reads fs fuel paths wd name 0 = .panic := rfl

/-! ### C31 -/

theorem validateLoop_spec (H : Bytes → Bytes) (pl : Nat) (hashes : Bytes) (files : List EntryBase) (ti : TorInfo)
    (h : Accepted pl hashes files ti) (fs : State) (cs : List Bytes) (hs : Stored fs files cs) (left i : Nat)
    (hli : left + i = ti.numPieces) (buf : Bytes) (hbuf : buf.length = pl) (b : Bitfield) (hw : Wf b) (he : Exact b)
    (hn : b.nbits = ti.numPieces)
    (hbits : ∀ j, j < i → bit b.data j = decide (H (pieceOf cs.flatten pl j) = range hashes (20 * j) 20)) :
    ∃ b', validateLoop H fs (openedAll ti) left i buf b = .ok b' ∧ Wf b' ∧ Exact b' ∧ b'.nbits = ti.numPieces ∧
      ∀ j, j < ti.numPieces → bit b'.data j = decide (H (pieceOf cs.flatten pl j) = range hashes (20 * j) 20) := by
  induction left generalizing i buf b with
  | zero => exact ⟨b, rfl, hw, he, hn, fun j hj => hbits j (by omega)⟩
  | succ left ih =>
    have hplen : (pieceOf cs.flatten pl i).length ≤ pl := by
      unfold pieceOf; rw [List.length_take]; omega
    have hdl := hw.data_len
    have hhi := hw.hi
    obtain ⟨b1, hb1, hset⟩ := set_nat b i (decide (H (pieceOf cs.flatten pl i) = range hashes (20 * i) 20)) (by omega)
    unfold validateLoop
    rw [C26_read pl hashes files ti h fs cs hs i (by omega) buf (by omega)]
    simp only [Res.ok_bind, List.take_left]
    rw [show (openedAll ti).torInfo.PieceHash i = _ from h.hash i (by omega)]
    simp only [Res.ok_bind]
    rw [show (range hashes (20 * i) 20 == H (pieceOf cs.flatten pl i)) =
        decide (H (pieceOf cs.flatten pl i) = range hashes (20 * i) 20) by
      rw [Bool.eq_iff_iff, beq_iff_eq, decide_eq_true_iff, eq_comm], hb1]
    simp only [Res.ok_bind]
    refine ih (i + 1) (by omega) _ ?_ b1 ?_ ?_ ?_ ?_
    · rw [List.length_append, List.length_drop]; omega
    · refine ⟨?_, ?_, ?_, ?_⟩
      · rw [hset.len, hset.nbytes]; exact hw.len
      · rw [hset.nbits]; exact hw.lo
      · rw [hset.nbits, hset.nbytes]; exact hw.lo8
      · rw [hset.nbits, hset.nbytes]; exact hw.hi
    · unfold Exact at he ⊢
      rw [hset.nset, hset.nbits, he, count_congr (fun j _ => hset.bits j)]
      have := count_update (bit b.data) i b.nbits.toNat
        (decide (H (pieceOf cs.flatten pl i) = range hashes (20 * i) 20)) (by omega)
      revert this
      generalize decide (H (pieceOf cs.flatten pl i) = range hashes (20 * i) 20) = v
      intro this
      split <;> split <;> simp_all <;> omega
    · rw [hset.nbits, hn]
    · intro j hj
      rw [hset.bits j]
      split
      · rename_i hji; rw [hji]
      · exact hbits j (by omega)

/-- **C31**: for every accepted torrent whose files are on disk, start-up validation succeeds, sets bit `i` exactly if the
bytes of piece `i` on disk hash to the recorded hash, and the bitfield is complete exactly if all do. -/
theorem C31_validate (H : Bytes → Bytes) (pl : Nat) (hashes : Bytes) (files : List EntryBase) (ti : TorInfo)
    (h : Accepted pl hashes files ti) (fs : State) (cs : List Bytes) (hs : Stored fs files cs) :
    ∃ b0 b, NewBitfield ti.numPieces = .ok b0 ∧ Validate H fs (openedAll ti) b0 = .ok b ∧
      (∀ i : Nat, i < ti.numPieces → b.Get i = .ok (decide (H (pieceOf cs.flatten pl i) = range hashes (20 * i) 20))) ∧
      b.nbits = ti.numPieces ∧
      b.nset = count (fun i => decide (H (pieceOf cs.flatten pl i) = range hashes (20 * i) 20)) ti.numPieces ∧
      (b.Complete = true ↔ ∀ i : Nat, i < ti.numPieces → H (pieceOf cs.flatten pl i) = range hashes (20 * i) 20) := by
  obtain ⟨b0, hb0, hw, hn, hset, hz⟩ := new_wf ti.numPieces
  have he : Exact b0 := by
    unfold Exact
    rw [hset, count_congr (fun j _ => hz j)]
    have : ∀ n, count (fun _ => false) n = 0 := by intro n; induction n with
      | zero => rfl
      | succ n ih => simp [count, ih]
    rw [this]; rfl
  obtain ⟨name, hm⟩ := h.made
  obtain ⟨-, hp, -⟩ := C24_fields _ _ _ _ _ hm
  obtain ⟨b, hb, hw', he', hn', hbits⟩ := validateLoop_spec H pl hashes files ti h fs cs hs ti.numPieces 0 (by omega)
    (List.replicate pl 0) (by simp) b0 hw he hn (fun j hj => by omega)
  have hcnt : b.nset = count (fun i => decide (H (pieceOf cs.flatten pl i) = range hashes (20 * i) 20)) ti.numPieces := by
    rw [he', hn', Int.toNat_natCast, count_congr hbits]
  refine ⟨b0, b, hb0, ?_, ?_, hn', hcnt, ?_⟩
  · unfold Validate
    rw [show (openedAll ti).torInfo.pieceLen = (pl : Int) from hp, if_neg (by omega)]
    exact hb
  · intro i hi
    have hdl := hw'.data_len
    have := hw'.hi
    rw [get_nat, if_pos (by omega), hbits i hi]
  · unfold Bitfield.Complete
    rw [hcnt, hn']
    simp only [decide_eq_true_eq]
    rw [show ∀ a b : Nat, ((a : Int) = (b : Int)) ↔ a = b from fun a b => Int.ofNat_inj, count_eq_iff]
    simp only [decide_eq_true_eq]

theorem contents_stored {fs : State} {dir : Bytes} {paths cs : List Bytes}
    (hc : Contents fs dir paths cs) : Stored fs (List.zipWith (entryFor dir) paths cs) cs := by
  have hlen : paths.length = cs.length := by have := congrArg List.length hc; simpa using this
  refine ⟨(entries_lens dir _ _ hlen).symm, ?_⟩
  intro k f c hf hk
  rw [List.getElem?_zipWith] at hf
  cases hp : paths[k]? with
  | none => rw [hp] at hf; simp at hf
  | some p =>
    rw [hp, hk] at hf
    simp only [Option.some.injEq] at hf
    subst hf
    have := congrArg (fun l => l[k]?) hc
    simp only [List.getElem?_map, hp, hk, Option.map_some, Option.some.injEq] at this
    exact this

/-- **C31**, start-up as in NewSwarm: after the files have been prepared (with possible failures of system calls other than
opening an existing file), validation judges the old contents, cut or filled with zeros to the recorded length. -/
theorem C31_startup (H : Bytes → Bytes) (pl : Nat) (hashes : Bytes) (files : List EntryBase) (ti : TorInfo)
    (h : Accepted pl hashes files ti) (hp : (files.map EntryBase.localPath).Nodup) (fs fs' : State)
    (hx : Exec false (OCATAll ti.flist) fs (.done (.ok ())) fs') (stream : Bytes)
    (hst : stream = (files.map fun f => prepared (old fs f.localPath) f.length.toNat).flatten) :
    ∃ b0 b, NewBitfield ti.numPieces = .ok b0 ∧ Validate H fs' (openedAll ti) b0 = .ok b ∧
      (∀ i : Nat, i < ti.numPieces → b.Get i = .ok (decide (H (pieceOf stream pl i) = range hashes (20 * i) 20))) ∧
      (b.Complete = true ↔ ∀ i : Nat, i < ti.numPieces → H (pieceOf stream pl i) = range hashes (20 * i) 20) := by
  subst hst
  obtain ⟨b0, b, h1, h2, h3, -, -, h4⟩ := C31_validate H pl hashes files ti h fs' _
    (C26_prepared pl hashes files ti h hp fs fs' hx)
  exact ⟨b0, b, h1, h2, h3, h4⟩

/-- **C31**: a torrent that was created from files validates against them: every piece is present and the bitfield is
complete. -/
theorem C31_created (H : Bytes → Bytes) (hH : ∀ x, (H x).length = 20) (reads : Nat → Option Nat)
    (fs : State) (fuel : Nat) (paths : List Bytes) (wd name : Bytes) (pl : Nat) (hpl : 0 < pl)
    (hmax : pl ≤ 5 * 1024 * 1024) (ti : TorInfo) (hti : CreateTorInfo H reads fs fuel paths wd name pl = .ok ti) :
    ∃ b0 b, NewBitfield ti.numPieces = .ok b0 ∧ Validate H fs (openedAll ti) b0 = .ok b ∧
      (∀ i : Nat, i < ti.numPieces → b.Get i = .ok true) ∧ b.Complete = true := by
  obtain ⟨cs, hc, hm⟩ := (created_made H reads fs fuel paths wd name pl hpl hmax).1 ti hti
  have hlen : paths.length = cs.length := by have := congrArg List.length hc; simpa using this
  obtain ⟨ti', t1, t2⟩ := newTorInfo_created H hH (filesDir paths wd name) paths cs name pl hpl hlen
  rw [t1] at hm
  cases hm
  obtain ⟨b0, b, h1, h2, h3, -, -, h4⟩ := C31_validate H pl _ _ ti ⟨hpl, entries_nonneg _ _ _, name, t1⟩ fs cs
    (contents_stored hc)
  have hall : ∀ i : Nat, i < ti.numPieces → H (pieceOf cs.flatten pl i) = range (pieceHashes H cs.flatten pl) (20 * i) 20 := by
    intro i hi
    rw [pieceHashes_range H hH _ _ _ (by rw [← t2.numPieces]; exact hi)]
  refine ⟨b0, b, h1, h2, fun i hi => ?_, h4.mpr hall⟩
  rw [h3 i hi, decide_eq_true (hall i hi)]

/-- **C31**, the same with the preparation of the files before it: nothing is changed and everything is present. -/
theorem C31_created_startup (H : Bytes → Bytes) (hH : ∀ x, (H x).length = 20) (reads : Nat → Option Nat)
    (fs : State) (fuel : Nat) (paths : List Bytes) (wd name : Bytes) (pl : Nat) (hpl : 0 < pl)
    (hmax : pl ≤ 5 * 1024 * 1024) (hd : (paths.map (Join (filesDir paths wd name))).Nodup)
    (ti : TorInfo) (hti : CreateTorInfo H reads fs fuel paths wd name pl = .ok ti) (fs' : State)
    (hx : Exec false (OCATAll ti.flist) fs (.done (.ok ())) fs') :
    ∃ b0 b, NewBitfield ti.numPieces = .ok b0 ∧ Validate H fs' (openedAll ti) b0 = .ok b ∧
      (∀ i : Nat, i < ti.numPieces → b.Get i = .ok true) ∧ b.Complete = true := by
  obtain ⟨cs, hc, hm⟩ := (created_made H reads fs fuel paths wd name pl hpl hmax).1 ti hti
  have hlen : paths.length = cs.length := by have := congrArg List.length hc; simpa using this
  obtain ⟨ti', t1, t2⟩ := newTorInfo_created H hH (filesDir paths wd name) paths cs name pl hpl hlen
  rw [t1] at hm
  cases hm
  have hst := contents_stored hc
  have hprep : (List.zipWith (entryFor (filesDir paths wd name)) paths cs).map
      (fun f => prepared (old fs f.localPath) f.length.toNat) = cs := by
    apply List.ext_getElem?
    intro k
    rw [List.getElem?_map]
    cases hk : cs[k]? with
    | none =>
      rw [List.getElem?_eq_none (by
        rw [List.length_zipWith, ← hlen, Nat.min_self, hlen]; exact List.getElem?_eq_none_iff.mp hk)]
      rfl
    | some c =>
      have hkl : k < cs.length := (List.getElem?_eq_some_iff.mp hk).1
      have hpk : paths[k]? = some (paths[k]'(by omega)) := List.getElem?_eq_getElem (by omega)
      have hz : (List.zipWith (entryFor (filesDir paths wd name)) paths cs)[k]? =
          some (entryFor (filesDir paths wd name) (paths[k]'(by omega)) c) := by
        rw [List.getElem?_zipWith, hpk, hk]
      rw [hz]
      have := hst.2 k _ c hz hk
      simp only [Option.map_some, Option.some.injEq]
      unfold old
      rw [this]
      simp [prepared, entryFor, MakeFileEntry, EntryBase.SetLocalPath]
  have hnd : ((List.zipWith (entryFor (filesDir paths wd name)) paths cs).map EntryBase.localPath).Nodup := by
    have : (List.zipWith (entryFor (filesDir paths wd name)) paths cs).map EntryBase.localPath =
        paths.map (Join (filesDir paths wd name)) := by
      rw [List.map_zipWith]
      exact (List.zipWith_eq_zipWith_take_min ..).trans (by
        rw [← hlen, Nat.min_self, List.take_length, hlen, List.take_length]
        clear hc t1 t2 hx hti hst hprep hd
        generalize filesDir paths wd name = dir
        revert hlen
        revert cs
        induction paths with
        | nil => intro cs _; rfl
        | cons p ps ih =>
          intro cs hl
          cases cs with
          | nil => cases hl
          | cons c cs => rw [List.zipWith_cons_cons, ih cs (by simpa using hl)]; rfl)
    rw [this]; exact hd
  obtain ⟨b0, b, h1, h2, h3, h4⟩ := C31_startup H pl _ _ ti ⟨hpl, entries_nonneg _ _ _, name, t1⟩ hnd fs fs' hx _ rfl
  rw [hprep] at h3 h4
  have hall : ∀ i : Nat, i < ti.numPieces → H (pieceOf cs.flatten pl i) = range (pieceHashes H cs.flatten pl) (20 * i) 20 := by
    intro i hi
    rw [pieceHashes_range H hH _ _ _ (by rw [← t2.numPieces]; exact hi)]
  refine ⟨b0, b, h1, h2, fun i hi => ?_, h4.mpr hall⟩
  rw [h3 i hi, decide_eq_true (hall i hi)]

/-- a torrent created from the three example files, then the second byte of `c` (piece 2) is damaged: the bits are 1, 1, 0 -/
example : ∃ ti b0 b, CreateTorInfo exH (fun _ => some 2) exFs 6 [ascii "a", ascii "b", ascii "d/c"] (ascii "/w") (ascii "t") 3
      = .ok ti ∧ NewBitfield ti.numPieces = .ok b0 ∧
    Validate exH (exFs.set (ascii "/w/t/d/c") [6, 99, 8]) (openedAll ti) b0 = .ok b ∧
    b.Get 0 = .ok true ∧ b.Get 1 = .ok true ∧ b.Get 2 = .ok false ∧ b.Complete = false := by
  refine ⟨_, _, _, rfl, rfl, rfl, ?_⟩
  decide +kernel

end Verif.Create
