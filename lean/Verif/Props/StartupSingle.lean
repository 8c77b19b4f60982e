import Verif.Props.Startup
/-
C72 for torrents of one file, whatever it is called: what the client does with the file that has the name of the torrent, and which pieces it then has.
-/
set_option autoImplicit false

namespace Verif.Startup
open Verif.Files Verif.FS Verif.FileIO Verif.Bf Verif.Torrent Verif.Layout Verif.Bits Verif.Query Verif.MsgHandler Verif.PieceTracker Verif.Bencode
  Verif.Bencode.Spec Verif.Create Verif.Path


/-- **C72**, exactly, for a torrent that was created from one file, called what it may: a client started on the saved torrent takes the file with the name of the torrent in its working
directory, brings it to the length of the original (cut off, or filled up with zeros), changes nothing else, and has exactly the pieces whose hash is that of the
original's piece. -/
theorem C72_single (w : World) (hH : ∀ x, (w.H x).length = 20) (reads : Nat → Option Nat) (fs : FS.State) (fuel : Nat) (p wd name : Bytes)
    (pl : Nat) (hpl : 0 < pl) (hmax : pl ≤ 5 * 1024 * 1024) (ti : TorInfo) (hti : CreateTorInfo w.H reads fs fuel [p] wd name pl = .ok ti)
    (hl63 : ti.length < 2 ^ 63) (hn : ti.numPieces < 2 ^ 32) (announce file input : Bytes) (he : Encode (metainfo announce ti) = (file, none))
    (hflen : file.length < 2 ^ 63) (port : UInt16) (id : Bytes) (readOk : Bool) (st : Started) (fs' : FS.State)
    (hst : NewSwarm false w ⟨input, wd, port⟩ id readOk (fs.set input file) (.ok st) fs') :
    ∃ c, fs (Join wd p) = some c ∧ st.tor.info.numPieces = needed c.length pl ∧
      fs' (Join wd name) = some (prepared (old (fs.set input file) (Join wd name)) c.length) ∧
      (∀ q, q ≠ Join wd name → fs' q = (fs.set input file) q) ∧
      ∀ i : Nat, i < needed c.length pl → st.core.bf.Get i =
        .ok (decide (w.H (pieceOf (prepared (old (fs.set input file) (Join wd name)) c.length) pl i) = w.H (pieceOf c pl i))) := by
  obtain ⟨cs, hc, hm⟩ := (created_made w.H reads fs fuel [p] wd name pl hpl hmax).1 ti hti
  obtain ⟨c, rfl⟩ : ∃ c, cs = [c] := by
    have := congrArg List.length hc
    match cs, this with
    | [c], _ => exact ⟨c, rfl⟩
  have hc0 : fs (Join wd p) = some c := by
    have := congrArg List.head? hc
    simpa [filesDir] using this
  obtain ⟨ti0, t1, t2⟩ := newTorInfo_created w.H hH (filesDir [p] wd name) [p] [c] name pl hpl rfl
  have hm' := hm
  rw [t1] at hm'
  cases hm'
  obtain ⟨g1, g2, g3, g4, g5, g6⟩ := newTorInfo_fields hm
  obtain ⟨t, ti', r1, -, -, r2, u1, u2, u3, u4, u5, u6, r3, r4⟩ := C70_roundtrip w.H name pl hpl _ _ (entries_nonneg _ _ _) ti hm (by omega)
    (by rw [← g5]; exact hl63) announce file w.spareFile wd he hflen
  have hnp : ti.numPieces = needed c.length pl := by rw [t2.numPieces]; simp
  have hplaced : placed wd name (List.zipWith (entryFor (filesDir [p] wd name)) [p] [c]) = [⟨c.length, name, Join wd name⟩] := by
    simp [placed, entryFor, MakeFileEntry, EntryBase.SetLocalPath]
  rw [hplaced] at r3
  obtain ⟨e, hfl, hb⟩ : ∃ e, ti'.flist = [e] ∧ e.base = ⟨c.length, name, Join wd name⟩ := by
    cases hfl : ti'.flist with
    | nil => rw [hfl] at r3; cases r3
    | cons e es =>
      rw [hfl, List.map_cons, List.cons.injEq, List.map_eq_nil_iff] at r3
      exact ⟨e, by rw [r3.2], r3.1⟩
  obtain ⟨data, -, s2, s3, s4, s5⟩ := started_parts hst
  have hdata : data = file := by
    have : (fs.set input file) input = some file := by simp [FS.State.set]
    rw [this] at s2
    exact (Option.some.inj s2).symm
  subst hdata
  have hinfo : st.tor.info = ti' := by
    rw [r2] at s3
    rw [← Res.ok.inj s3]
  have hs : Sensible ti' := by
    refine ⟨by rw [u2, g2]; omega, by rw [u2, g2]; omega, ?_, by rw [hfl]; simp⟩
    intro x hx
    rw [hfl, List.mem_singleton] at hx
    rw [hx, hb]
    simp
  obtain ⟨-, c2, c3, c4, -⟩ := C71_started w _ id readOk _ fs' st hst (by rw [hinfo]; exact hs) (by rw [hinfo, u4]; exact hn)
  rw [hinfo] at c2 c3 c4
  refine ⟨c, hc0, by rw [hinfo, u4, hnp], ?_, ?_, ?_⟩
  · have := c2 0 e (by rw [hfl]; rfl)
    rw [hb] at this
    exact this
  · intro q hq
    refine c3 q fun x hx => ?_
    rw [hfl, List.mem_singleton] at hx
    rw [hx, hb]
    exact hq
  · intro i hi
    have h4 := c4 i (by rw [u4, hnp]; exact hi)
    have hpa : (prepAll ti' (fs.set input data)).flatten = prepared (old (fs.set input data) (Join wd name)) c.length := by
      unfold prepAll
      rw [hfl, List.map_singleton, hb]
      simp
    rw [hpa, u2, g2, u3, g3, pieceHashes_range w.H hH _ _ _ (by simpa using hi)] at h4
    simpa using h4

/-- byte strings of the same length with the same pieces are the same -/
theorem eq_of_pieces (x y : Bytes) (pl : Nat) (hpl : 0 < pl) (hl : x.length = y.length)
    (h : ∀ i, i < needed y.length pl → pieceOf x pl i = pieceOf y pl i) : x = y := by
  apply List.ext_getElem?
  intro k
  by_cases hk : k < y.length
  · have hdm := Nat.div_add_mod k pl
    have hml := Nat.mod_lt k hpl
    have hi : k / pl < needed y.length pl := by
      unfold needed
      apply Nat.div_lt_of_lt_mul
      have := Nat.div_add_mod (y.length + pl - 1) pl
      have := Nat.mod_lt (y.length + pl - 1) hpl
      omega
    have := congrArg (·[k % pl]?) (h _ hi)
    simp only [pieceOf, List.getElem?_take, if_pos hml, List.getElem?_drop] at this
    rw [show k / pl * pl + k % pl = k by rw [Nat.mul_comm]; exact hdm] at this
    exact this
  · rw [List.getElem?_eq_none (by omega), List.getElem?_eq_none (by omega)]

/-- **C72**, exactly, for a torrent that was created from one file, as long as no two of the pieces concerned collide: the client started on it has everything if and only if the file
with the name of the torrent is the original – up to bytes behind its end and missing zeros at its end. -/
theorem C72_single_iff (w : World) (hH : ∀ x, (w.H x).length = 20) (reads : Nat → Option Nat) (fs : FS.State) (fuel : Nat) (p wd name : Bytes)
    (pl : Nat) (hpl : 0 < pl) (hmax : pl ≤ 5 * 1024 * 1024) (ti : TorInfo) (hti : CreateTorInfo w.H reads fs fuel [p] wd name pl = .ok ti)
    (hl63 : ti.length < 2 ^ 63) (hn : ti.numPieces < 2 ^ 32) (announce file input : Bytes) (he : Encode (metainfo announce ti) = (file, none))
    (hflen : file.length < 2 ^ 63) (port : UInt16) (id : Bytes) (readOk : Bool) (st : Started) (fs' : FS.State)
    (hst : NewSwarm false w ⟨input, wd, port⟩ id readOk (fs.set input file) (.ok st) fs') (c : Bytes) (hc : fs (Join wd p) = some c)
    (hcol : ∀ i, i < needed c.length pl →
      w.H (pieceOf (prepared (old (fs.set input file) (Join wd name)) c.length) pl i) = w.H (pieceOf c pl i) →
      pieceOf (prepared (old (fs.set input file) (Join wd name)) c.length) pl i = pieceOf c pl i) :
    (∀ i : Nat, i < st.tor.info.numPieces → st.core.bf.Get i = .ok true) ↔ prepared (old (fs.set input file) (Join wd name)) c.length = c := by
  obtain ⟨c', h1, h2, -, -, h5⟩ := C72_single w hH reads fs fuel p wd name pl hpl hmax ti hti hl63 hn announce file input he hflen port id readOk st fs' hst
  rw [hc] at h1
  cases h1
  rw [h2]
  constructor
  · intro h
    refine eq_of_pieces _ _ pl hpl (prepared_length _ _) fun i hi => hcol i hi ?_
    have := h i hi
    rw [h5 i hi] at this
    exact of_decide_eq_true (Res.ok.inj this)
  · intro h i hi
    rw [h5 i hi, h, decide_eq_true rfl]

/-- the torrent `b` of the file `a` with one byte 7, next to a file `b` with the bytes 1, 2, 3: the client has nothing, since its file is cut to the byte 1 -/
example : ∃ (ti : TorInfo) (file : Bytes) (st : Started) (fs' : FS.State),
    CreateTorInfo exWorld'.H (fun _ => some 9) exTwo 9 [ascii "a"] (ascii "/w") (ascii "b") (1 : Nat) = .ok ti ∧ ti.length < 2 ^ 63 ∧ ti.numPieces < 2 ^ 32 ∧
    Encode (metainfo (ascii "x") ti) = (file, none) ∧ file.length < 2 ^ 63 ∧
    NewSwarm false exWorld' ⟨ascii "/t", ascii "/w", 7000⟩ (List.replicate 20 65) true (exTwo.set (ascii "/t") file) (.ok st) fs' ∧
    prepared (old (exTwo.set (ascii "/t") file) (Join (ascii "/w") (ascii "b"))) 1 = [1] ∧ exTwo (Join (ascii "/w") (ascii "a")) = some [7] ∧
    exWorld'.H [1] ≠ exWorld'.H [7] := by
  obtain ⟨ti, file, st, fs', h1, h2, h3, -, -, -, h7, -⟩ := C72_refuted_renamed
  obtain ⟨cs, hc, hm⟩ := (created_made exH _ _ 9 [ascii "a"] (ascii "/w") (ascii "b") 1 (by decide) (by decide)).1 ti h1
  obtain ⟨g1, g2, g3, g4, g5, g6⟩ := newTorInfo_fields hm
  have hcs : cs = [[7]] := by
    have : [[7]].map some = cs.map some := by
      rw [← hc]; decide +kernel
    exact ((List.map_inj_right (fun _ _ h => Option.some.inj h)).mp this).symm
  subst hcs
  have hph : pieceHashes exH [[7]].flatten 1 = exH [7] := by decide +kernel
  have he : Encode (metainfo (ascii "x") ti) = (ascii "d8:announce1:x4:infod6:lengthi1e4:name1:b12:piece lengthi1e6:pieces20:" ++ exH [7] ++ ascii "7:privatei0eee", none) := by
    unfold metainfo benInfo
    rw [g4.mpr rfl, g1, g2, g3, g5, hph]
    simp [exH, Encode, encode, encodeEntries, encodeSorted, List.mergeSort, List.MergeSort.Internal.splitInTwo,
      bytesLe, ascii, wrapEnc, seqEnc, encodeString, encodeInt, natDec_lt, intDec, natDec_12, natDec_20, entryFor,
      MakeFileEntry, EntryBase.SetLocalPath]
  have hfile := h2
  rw [he] at hfile
  have hfl : file.length < 2 ^ 63 := by
    rw [← (Prod.mk.inj hfile).1]
    decide +kernel
  refine ⟨ti, file, st, fs', h1, by rw [g5]; decide +kernel, by rw [h7]; decide, h2, hfl, h3, ?_, by decide +kernel, by decide +kernel⟩
  unfold old FS.State.set
  rw [if_neg (by decide +kernel)]
  decide +kernel

/-! ### C71: what the tracker is told to be missing -/

/-- the bytes of the pieces that a client with this bitfield lacks -/
def missing (data : Bytes) (pl n : Nat) (bits : Bytes) : Nat :=
  ((List.range n).map fun i => if bit bits i then 0 else (pieceOf data pl i).length).sum

theorem sum_zero_iff (l : List Nat) : l.sum = 0 ↔ ∀ x ∈ l, x = 0 := by
  induction l with
  | nil => simp
  | cons a l ih => rw [List.sum_cons, List.forall_mem_cons, ← ih]; omega

theorem missing_zero_iff (data : Bytes) (pl n : Nat) (bits : Bytes) :
    missing data pl n bits = 0 ↔ ∀ i, i < n → bit bits i = true ∨ pieceOf data pl i = [] := by
  unfold missing
  rw [sum_zero_iff]
  simp only [List.mem_map, List.mem_range, forall_exists_index, and_imp, forall_apply_eq_imp_iff₂]
  refine forall_congr' fun i => imp_congr_right fun _ => ?_
  cases bit bits i <;> simp

/-- **C71**, what the tracker is told about missing bytes, exactly: the number is right precisely if the client has every piece that is not empty – in all other cases it says 0 as well. -/
theorem C71_left_iff (w : World) (o : Options) (id : Bytes) (readOk : Bool) (fs fs' : State) (st : Started)
    (h : NewSwarm false w o id readOk fs (.ok st) fs') (hs : Sensible st.tor.info) (hn : st.tor.info.numPieces < 2 ^ 32)
    (extra : List (Bytes × Bytes)) (hc : NoControl st.tor.announce) (hp : w.parseURL st.tor.announce = some extra)
    (hid : ∀ c ∈ id, Unreserved c) (hex : ∀ p ∈ extra, p.1 ∉ (Tracker.announced [] [] 0 0 0 0).map Prod.fst) :
    ∃ raw q, Tracker.newRequest w.parseURL st.tor st.stats st.port st.id = .ok raw ∧ parseQuery raw = some q ∧
      (values q (ascii "left") = [decNat (missing (prepAll st.tor.info fs).flatten st.tor.info.pieceLen.toNat st.tor.info.numPieces st.core.bf.data)] ↔
        ∀ i : Nat, i < st.tor.info.numPieces →
          w.H (pieceOf (prepAll st.tor.info fs).flatten st.tor.info.pieceLen.toNat i) = range st.tor.info.hashes (20 * i) 20 ∨
          pieceOf (prepAll st.tor.info fs).flatten st.tor.info.pieceLen.toNat i = []) := by
  obtain ⟨-, -, -, c4, -, -, -, -, h1, h2, raw, body, h3, h4, h5⟩ := C71_started w o id readOk fs fs' st h hs hn
  have hst : st.stats = Tracker.NewStats 0 0 0 := started_stats h
  obtain ⟨raw', q, r1, r2, r3, r4, r5, r6, r7, r8, -⟩ := Tracker.C38_recovered_partial w.parseURL st.tor st.stats st.port id extra hc hp hid hex
  have h3' := h3
  rw [h1, r1] at h3'
  cases h3'
  refine ⟨raw, q, h3, r2, ?_⟩
  rw [r8, hst, List.cons.injEq]
  have hiff : missing (prepAll st.tor.info fs).flatten st.tor.info.pieceLen.toNat st.tor.info.numPieces st.core.bf.data = 0 ↔
      ∀ i : Nat, i < st.tor.info.numPieces →
          w.H (pieceOf (prepAll st.tor.info fs).flatten st.tor.info.pieceLen.toNat i) = range st.tor.info.hashes (20 * i) 20 ∨
          pieceOf (prepAll st.tor.info fs).flatten st.tor.info.pieceLen.toNat i = [] := by
    rw [missing_zero_iff]
    refine forall_congr' fun i => imp_congr_right fun hi => or_congr ?_ Iff.rfl
    have hg := c4 i hi
    rw [get_nat] at hg
    split at hg
    · rw [Res.ok.inj hg, decide_eq_true_iff]
    · cases hg
  rw [← hiff]
  constructor
  · intro he
    exact (Tracker.C38_numbers _ _ he.1).symm
  · intro he
    rw [he]
    exact ⟨rfl, rfl⟩

/-- the client of C71_refuted_left has nothing of its four bytes -/
example : missing [0, 0, 0, 0] 4 1 [0] = 4 ∧ missing [0, 0, 0, 0] 4 1 [128] = 0 ∧ missing [1, 2, 3, 4, 5] 2 4 [0x50] = 3 := by decide +kernel

end Verif.Startup
