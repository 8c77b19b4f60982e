import Verif.Props.Startup
import Verif.Props.Numbers
/-
Property C119: which numbers in the metadata a client starts with (/repo/src/swarm/swarm.go:39-118 with what it calls).
-/
set_option autoImplicit false

namespace Verif.Startup
open Verif.Files Verif.FS Verif.FileIO Verif.Bf Verif.Torrent Verif.Layout Verif.Bencode Verif.Numbers

/-- if all files could be opened, none has a negative length -/
theorem ocatAll_nonneg {sp : Bool} (es : List Entry) {fs fs' : State} (h : Exec sp (OCATAll es) fs (.done (.ok ())) fs') :
    ∀ e ∈ es, 0 ≤ e.base.length := by
  induction es generalizing fs with
  | nil => intro e he; cases he
  | cons e es ih =>
    rw [OCATAll] at h
    rcases h.bind_inv with ⟨g, -⟩ | ⟨r, mid, h1, h2⟩
    · cases g
    · cases r with
      | ok u =>
        intro g hg
        rcases List.mem_cons.mp hg with rfl | hg
        · rcases Int.lt_or_le g.base.length 0 with hn | hn
          · exact absurd h1 (C28_negative _ _ hn sp fs mid)
          · exact hn
        · exact ih h2 g hg
      | err e => cases h2
      | panic => cases h2
      | timeout => cases h2

/-- what the numbers of a loaded torrent have in common -/
theorem loaded_info {H : Bytes → Bytes} {data : Bytes} {sp wd : Bytes} {t : Torrent} (h : FromTorrentFile H (some data) sp wd = .ok t) :
    ∃ files, NewTorInfo t.info.name t.info.pieceLen t.info.hashes files = .ok t.info ∧ t.info.flist.map Entry.base = files := by
  obtain ⟨d, infod, -, -, -, h4, -⟩ := fromTorrentFile_ok h
  obtain ⟨name, pl, pieces, fes, -, -, -, -, h5⟩ := fromDict_ok h4
  obtain ⟨g1, g2, g3, g4, g5, g6⟩ := newTorInfo_fields h5
  refine ⟨_, ?_, rfl⟩
  rw [g6, g1, g2, g3]
  exact h5

theorem finish_negative (w : World) (o : Options) (id : Bytes) (tor : Torrent) (fs : State) (h : tor.info.pieceLen < 0) :
    finish w o id tor fs = .panic := by
  unfold finish
  obtain ⟨b0, h1, -⟩ := new_wf tor.info.numPieces
  rw [h1, Res.ok_bind]
  have : Swarm.Validate w.H fs (openedAll tor.info) b0 = .panic := by
    unfold Swarm.Validate
    exact if_pos h
  rw [this]
  rfl

/-- **C119**: a client starts only if the piece length is positive (or zero and there are no files), no file has a negative length, the hash string
consists of whole hashes and there is one for every piece; whatever system calls fail on the way. -/
theorem C119_started (sp : Bool) (w : World) (o : Options) (id : Bytes) (readOk : Bool) (fs fs' : State) (st : Started)
    (h : NewSwarm sp w o id readOk fs (.ok st) fs') :
    (0 < st.tor.info.pieceLen ∨ st.tor.info.pieceLen = 0 ∧ st.tor.info.flist = []) ∧ (∀ e ∈ st.tor.info.flist, 0 ≤ e.base.length) ∧
    st.tor.info.hashes.length = 20 * st.tor.info.numPieces ∧
    (st.tor.info.flist.map fun e => e.base.length).sum ≤ st.tor.info.numPieces * st.tor.info.pieceLen := by
  obtain ⟨data, -, hd, hf, hx, hfin⟩ := started_parts h
  have hnn := ocatAll_nonneg _ hx
  obtain ⟨files, hti, hfl⟩ := loaded_info hf
  obtain ⟨-, -, -, h20, -, -, hmk⟩ := C24_fields _ _ _ _ _ hti
  have hpl : 0 < st.tor.info.pieceLen ∨ st.tor.info.pieceLen = 0 ∧ st.tor.info.flist = [] := by
    rcases Int.lt_trichotomy st.tor.info.pieceLen 0 with hlt | h0 | hgt
    · rw [finish_negative w o id st.tor fs' hlt] at hfin
      cases hfin
    · refine .inr ⟨h0, ?_⟩
      cases files with
      | nil => exact List.map_eq_nil_iff.mp hfl
      | cons f fs =>
        unfold MakeFileList at hmk
        rw [if_pos ⟨h0, by simp⟩] at hmk
        cases hmk
    · exact .inl hgt
  refine ⟨hpl, hnn, by omega, ?_⟩
  rcases hpl with hpos | ⟨h0, hnil⟩
  · obtain ⟨p, hp⟩ : ∃ p : Nat, st.tor.info.pieceLen = p := ⟨st.tor.info.pieceLen.toNat, by omega⟩
    have hfn : ∀ f ∈ files, 0 ≤ f.length := by
      intro f hf
      rw [← hfl] at hf
      obtain ⟨e, he, rfl⟩ := List.mem_map.mp hf
      exact hnn e he
    rw [hp] at hti
    have := ((C24_accept_iff_partial _ p (by omega) _ _ hfn).mp ⟨_, hti⟩).2
    rw [needed_le_iff _ _ _ (by omega)] at this
    rw [show (fun e : Entry => e.base.length) = EntryBase.length ∘ Entry.base from rfl, ← List.map_map, hfl, sum_lens files hfn, hp, ← Int.natCast_mul]
    rw [show st.tor.info.hashes.length / 20 = st.tor.info.numPieces by omega] at this
    exact Int.ofNat_le.mpr this
  · rw [h0, hnil]
    simp

example : ∃ st fs', NewSwarm false exWorld exOptions (List.replicate 20 65) true exDisk (.ok st) fs' ∧ st.tor.info.pieceLen = 4 := by
  obtain ⟨st, fs', h, -, -, -, -, h4, -⟩ := ex_starts
  exact ⟨st, fs', h, h4⟩

/-- **C119**, what this means for the properties that assume metadata that makes sense (C71, C72, C83 and others): of a client that has started it need
only be assumed that there are files, that their places differ and that a piece fits into a message. -/
theorem C119_sensible (sp : Bool) (w : World) (o : Options) (id : Bytes) (readOk : Bool) (fs fs' : State) (st : Started)
    (h : NewSwarm sp w o id readOk fs (.ok st) fs') (hne : st.tor.info.flist ≠ []) (hsm : st.tor.info.pieceLen + 9 < 2 ^ 32)
    (hd : (st.tor.info.flist.map fun e => e.base.localPath).Nodup) : Sensible st.tor.info := by
  obtain ⟨hp, hn, -⟩ := C119_started sp w o id readOk fs fs' st h
  rcases hp with hp | ⟨-, hp⟩
  · exact ⟨hp, hsm, hn, hd⟩
  · exact absurd hp hne

example : ∃ st fs', NewSwarm false exWorld exOptions (List.replicate 20 65) true exDisk (.ok st) fs' ∧ st.tor.info.flist ≠ [] ∧
    st.tor.info.pieceLen + 9 < 2 ^ 32 ∧ (st.tor.info.flist.map fun e => e.base.localPath).Nodup := by
  obtain ⟨st, fs', h, hs, h1, -, -, h4, h5, -⟩ := ex_starts
  refine ⟨st, fs', h, ?_, hs.small, hs.distinct⟩
  intro hnil
  obtain ⟨data, -, hd, hf, -, -⟩ := started_parts h
  obtain ⟨t, g1, -, -, -, g5, -⟩ := ex_loads
  have : data = exTorrent := by
    have e : exDisk exOptions.input = some exTorrent := by decide +kernel
    rw [e] at hd
    cases hd
    rfl
  rw [this] at hf
  have e : FromTorrentFile exWorld.H (some exTorrent) exWorld.spareFile (ascii "/w") = .ok st.tor := hf
  rw [g1] at e
  cases e
  rw [hnil] at g5
  cases g5

/-- **C119**, a torrent with a negative piece length that is accepted: start-up ends with an error while the files are opened, or it panics. -/
theorem C119_piece_length (sp : Bool) (w : World) (o : Options) (id : Bytes) (readOk : Bool) (fs fs' : State) (t : Torrent) (r : Res Started)
    (hl : FromTorrentFile w.H (if readOk then fs o.input else none) w.spareFile o.workingDir = .ok t) (hneg : t.info.pieceLen < 0)
    (h : NewSwarm sp w o id readOk fs r fs') :
    (r = .panic ∧ Exec sp (OCATAll t.info.flist) fs (.done (.ok ())) fs') ∨
    (r = .panic ∧ Exec sp (OCATAll t.info.flist) fs (.done .panic) fs') ∨
    ∃ e, r = .err e ∧ Exec sp (OCATAll t.info.flist) fs (.done (.err e)) fs' := by
  cases h with
  | rejected e h1 => rw [hl] at h1; cases h1
  | crashed h1 => rw [hl] at h1; cases h1
  | noFiles _ t' e h1 h2 => rw [hl] at h1; cases h1; exact .inr (.inr ⟨e, rfl, h2⟩)
  | filesCrashed _ t' h1 h2 => rw [hl] at h1; cases h1; exact .inr (.inl ⟨rfl, h2⟩)
  | ready _ t' h1 h2 =>
    rw [hl] at h1
    cases h1
    exact .inl ⟨finish_negative w o id t fs' hneg, h2⟩

/-- **C119**, a file with a negative length: a file that is there stays as it is, and the result is an error; otherwise an empty file may be left
behind, and the result is an error or a panic. -/
theorem C119_file_length (path : Bytes) (n : Int) (hn : n < 0) (fs fs' : State) (r : Res Unit) (h : Exec false (OCAT path n) fs (.done r) fs') :
    (r = .err .os ∧ fs' = fs) ∨ (fs path = none ∧ (r = .err .os ∨ r = .panic) ∧ fs' = fs.set path []) := by
  unfold OCAT at h
  cases h with
  | open_ok _ _ _ _ _ c hc h =>
    simp only [if_true] at h
    unfold checkSize at h
    cases h with
    | size_ok _ _ _ _ _ c' hc' h =>
      simp only at h
      rw [if_neg (by omega), if_pos (by omega)] at h
      cases h with
      | truncate_ok _ m _ _ _ _ c hc h => omega
      | truncate_fail _ _ _ _ _ _ h => cases h; exact .inl ⟨rfl, rfl⟩
    | size_fail _ _ _ _ _ h => cases h; exact .inl ⟨rfl, rfl⟩
  | open_fail _ _ _ _ _ hc h =>
    have hnone : fs path = none := by
      rcases hc with hc | hc
      · exact hc
      · cases hc
    simp only [Bool.false_eq_true, if_false] at h
    have key : ∀ r mid, Exec false (CreateZeroFilledFile path n) fs (.done r) mid →
        (r = .err .os ∧ mid = fs) ∨ ((r = .err .os ∨ r = .panic) ∧ mid = fs.set path []) := by
      intro r mid h
      unfold CreateZeroFilledFile at h
      cases h with
      | mkdir _ _ _ _ _ b h =>
        cases b with
        | false => cases h; exact .inl ⟨rfl, rfl⟩
        | true =>
          simp only [if_true] at h
          cases h with
          | trunc_fail _ _ _ _ _ h => cases h; exact .inl ⟨rfl, rfl⟩
          | trunc_ok _ _ _ _ _ h =>
            simp only [if_true] at h
            unfold AppendZeros at h
            cases h with
            | size_ok _ _ _ _ _ c hc h =>
              simp only at h
              rw [appendLoop, if_neg (by omega), if_neg (by unfold writeSize; omega), if_pos hn] at h
              cases h
              exact .inr ⟨.inr rfl, rfl⟩
            | size_fail _ _ _ _ _ h => cases h; exact .inr ⟨.inl rfl, rfl⟩
    rcases h.bind_inv with ⟨e, -⟩ | ⟨r', mid, h1, h2⟩
    · cases e
    · rcases key r' mid h1 with ⟨rfl, rfl⟩ | ⟨rfl | rfl, rfl⟩
      · cases h2; exact .inl ⟨rfl, rfl⟩
      · cases h2; exact .inr ⟨hnone, .inl rfl, rfl⟩
      · cases h2; exact .inr ⟨hnone, .inr rfl, rfl⟩

/-- both ends occur -/
example : Exec false (OCAT (ascii "f") (-3)) (fun _ => none) (.done .panic) (State.set (fun _ => none) (ascii "f") []) ∧
    Exec false (OCAT (ascii "f") (-3)) (fun _ => some [1]) (.done (.err .os)) (fun _ => some [1]) := by
  constructor
  · refine .open_fail _ _ _ _ _ (.inl rfl) (.mkdir _ _ _ _ _ true (.trunc_ok _ _ _ _ _ ?_))
    exact .size_ok _ _ _ _ _ [] (by simp [State.set]) (.ret _ _)
  · exact .open_ok _ _ _ _ _ [1] rfl (.size_ok _ _ _ _ _ [1] rfl (.truncate_fail _ _ _ _ _ _ (.ret _ _)))

/-- the client never serves a torrent with a negative number -/
theorem C119_never (sp : Bool) (w : World) (o : Options) (id : Bytes) (readOk : Bool) (fs fs' : State) (t : Torrent) (r : Res Started)
    (hl : FromTorrentFile w.H (if readOk then fs o.input else none) w.spareFile o.workingDir = .ok t)
    (hneg : t.info.pieceLen < 0 ∨ ∃ e ∈ t.info.flist, e.base.length < 0) (h : NewSwarm sp w o id readOk fs r fs') :
    r = .panic ∨ ∃ e, r = .err e := by
  cases h with
  | rejected e h1 => exact .inr ⟨e, rfl⟩
  | crashed h1 => exact .inl rfl
  | noFiles _ t' e h1 h2 => exact .inr ⟨e, rfl⟩
  | filesCrashed _ t' h1 h2 => exact .inl rfl
  | ready _ t' h1 h2 =>
    rw [hl] at h1
    cases h1
    rcases hneg with hneg | ⟨e, he, hlt⟩
    · exact .inl (finish_negative w o id t fs' hneg)
    · have := ocatAll_nonneg _ h2 e he
      omega

/-- torrent file of three bytes in pieces of minus five bytes -/
def cutTorrent : Bytes := ascii "d8:announce3:a/b4:infod6:lengthi3e4:name1:n12:piece lengthi-5e6:pieces20:aaaaaaaaaaaaaaaaaaaaee"

/-- its info dictionary -/
def cutInfo : Dict :=
  [(ascii "length", .int64 3), (ascii "name", .str (ascii "n")), (ascii "piece length", .int64 (-5)),
   (ascii "pieces", .str (ascii "aaaaaaaaaaaaaaaaaaaa"))]

theorem cut_loads (H : Bytes → Bytes) : ∃ t, FromTorrentFile H (some cutTorrent) [] (ascii "/w") = .ok t ∧ t.info.pieceLen = -5 ∧
    t.info.flist.map Entry.base = [⟨3, ascii "n", ascii "/w/n"⟩] := by
  have hd : Decode cutTorrent [] = .ok (.dict [(ascii "announce", .str (ascii "a/b")), (ascii "info", .dict cutInfo)]) := by decide +kernel
  obtain ⟨ti, h4⟩ := Res.isOk_iff (r := FromDict cutInfo (ascii "/w")) (by decide +kernel)
  have h : (match FromDict cutInfo (ascii "/w") with
    | .ok ti => decide (ti.pieceLen = -5 ∧ ti.flist.map Entry.base = [⟨3, ascii "n", ascii "/w/n"⟩])
    | _ => false) = true := by decide +kernel
  rw [h4] at h
  simp only [decide_eq_true_eq] at h
  exact ⟨_, fromTorrentFile_eq (an := ascii "a/b") (infod := cutInfo) hd (by decide +kernel) (by decide +kernel) h4 H, h⟩

/-- **C119** refuted: a torrent with a negative piece length is not refused; its file, ten bytes long, is first cut to the three bytes of the torrent, then
the program panics, whatever else the world is like. -/
theorem C119_refuted_cut (w : World) (hw : w.spareFile = []) (port : UInt16) (id : Bytes) (fs : State) (hin : fs (ascii "/t") = some cutTorrent)
    (hten : fs (ascii "/w/n") = some [1, 2, 3, 4, 5, 6, 7, 8, 9, 10]) :
    NewSwarm false w ⟨ascii "/t", ascii "/w", port⟩ id true fs .panic (fs.set (ascii "/w/n") [1, 2, 3]) := by
  obtain ⟨t, h1, h2, h3⟩ := cut_loads w.H
  have hl : FromTorrentFile w.H (if true then fs (ascii "/t") else none) w.spareFile (ascii "/w") = .ok t := by
    rw [if_pos rfl, hin, hw]; exact h1
  rw [← finish_negative w ⟨ascii "/t", ascii "/w", port⟩ id t (fs.set (ascii "/w/n") [1, 2, 3]) (by omega)]
  refine .ready _ _ t hl ?_
  cases hf : t.info.flist with
  | nil => rw [hf] at h3; cases h3
  | cons e es =>
    rw [hf, List.map_cons, List.cons.injEq, List.map_eq_nil_iff] at h3
    obtain ⟨he, rfl⟩ := h3
    rw [OCATAll, he]
    refine .open_ok _ _ _ _ _ _ hten (.size_ok _ _ _ _ _ _ hten ?_)
    exact .truncate_ok (ascii "/w/n") 3 _ _ _ _ _ hten (.ret _ _)

example : ∃ fs : State, fs (ascii "/t") = some cutTorrent ∧ fs (ascii "/w/n") = some [1, 2, 3, 4, 5, 6, 7, 8, 9, 10] :=
  ⟨fun p => if p = ascii "/t" then some cutTorrent else some [1, 2, 3, 4, 5, 6, 7, 8, 9, 10], if_pos rfl, if_neg (by decide +kernel)⟩

end Verif.Startup
