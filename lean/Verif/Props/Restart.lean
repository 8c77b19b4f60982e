import Verif.Props.Startup
import Verif.Props.FileConc
/-
Property C86: the process dies while pieces are written, and is started again.
-/
set_option autoImplicit false

namespace Verif.Startup
open Verif.Files Verif.FS Verif.FileIO Verif.Bf Verif.Torrent Verif.Layout Verif.FileConc Verif.Lts

/-- attempts to prepare the files of a torrent, which may fail or be interrupted anywhere -/
def Attempt (ti : TorInfo) (a b : FS.State) : Prop := ∃ o, Exec false (OCATAll ti.flist) a o b

/-- interrupted preparations do not change files that are prepared -/
theorem attempts_keep {ti : TorInfo} (hs : Sensible ti) {a b : FS.State} (h : Reach (Attempt ti) a b) :
    (∀ e ∈ ti.flist, prepared (old b e.base.localPath) e.base.length.toNat = prepared (old a e.base.localPath) e.base.length.toNat) ∧
    ∀ p, (∀ e ∈ ti.flist, p ≠ e.base.localPath) → b p = a p := by
  induction h with
  | refl => exact ⟨fun _ _ => rfl, fun _ _ => rfl⟩
  | tail s t _ hstep ih =>
    obtain ⟨o, hx⟩ := hstep
    obtain ⟨e1, e2, -⟩ := ocatAll_end _ hs.nonneg hs.distinct s t o hx
    exact ⟨fun e he => (e1 e he).trans (ih.1 e he), fun p hp => (e2 p hp).trans (ih.2 p hp)⟩

theorem prepAll_stored {ti : TorInfo} {fs : FS.State} {cs : List Bytes}
    (hs : Stored fs (ti.flist.map Entry.base) cs) : prepAll ti fs = cs := by
  unfold prepAll
  apply List.ext_getElem?
  intro k
  have hlen : cs.length = ti.flist.length := by
    have := congrArg List.length hs.1
    simpa [lens] using this
  rw [List.getElem?_map]
  cases he : ti.flist[k]? with
  | none =>
    have := List.getElem?_eq_none_iff.mp he
    rw [List.getElem?_eq_none (by omega)]
    rfl
  | some e =>
    have hlt := (List.getElem?_eq_some_iff.mp he).1
    have hc : cs[k]? = some (cs[k]'(by omega)) := List.getElem?_eq_getElem (by omega)
    have h1 := hs.2 k e.base _ (by rw [List.getElem?_map, he]; rfl) hc
    have h2 : (cs[k]'(by omega)).length = e.base.length.toNat := by
      have := congrArg (fun l : List Nat => l[k]?) hs.1
      simp only [lens, List.getElem?_map, he, hc, Option.map_some, Option.some.injEq] at this
      exact this
    rw [hc, Option.map_some]
    congr 1
    have : old fs e.base.localPath = cs[k]'(by omega) := by unfold old; rw [h1]; rfl
    rw [this]
    exact prepared_of_length _ _ h2

/-- **C86**.  A client is started, any number of pieces are read and written at the same time, and at any moment the process dies.  It is started
again, perhaps several times without getting far, until a start is successful.  Then
* it has the same torrent, and marks exactly the pieces whose bytes on disk have the recorded hash;
* pieces that nobody was writing (or only with the data they had) are marked as before, and have the same bytes;
* a piece for which a `WritePiece` had returned with success is marked, and has the bytes written, if all writes of it were of the same data;
* a piece that was being written is not marked, or has exactly the bytes that were written to it, unless two byte strings have the same hash. -/
theorem C86_restart (w w2 : World) (o o2 : Options) (id id2 : Bytes) (readOk readOk2 : Bool) (fs fs1 fs2 fs3 : FS.State) (st st2 : Started)
    (h1 : NewSwarm false w o id readOk fs (.ok st) fs1) (hs : Sensible st.tor.info) (hn : st.tor.info.numPieces < 2 ^ 32)
    (hin : ∀ e ∈ st.tor.info.flist, o.input ≠ e.base.localPath)
    (calls : List Call) (hz : Sized w.H st.tor.info.hashes st.tor.info.numPieces st.tor.info.pieceLen.toNat (prepAll st.tor.info fs).flatten calls)
    (faulty : Bool) (s : St) (hr : Reach (Step st.core.fio faulty) (init w.H st.tor.info fs1 calls) s)
    (ha : Reach (Attempt st.tor.info) s.sh.fs fs2)
    (hw : w2.H = w.H ∧ w2.spareFile = w.spareFile) (ho : o2.input = o.input ∧ o2.workingDir = o.workingDir)
    (h2 : NewSwarm false w2 o2 id2 readOk2 fs2 (.ok st2) fs3) :
    st2.tor = st.tor ∧
    ∃ cs', Stored fs3 (st.tor.info.flist.map Entry.base) cs' ∧
      (∀ k : Nat, k < st.tor.info.numPieces →
        st2.core.bf.Get k = .ok (decide (w.H (pieceOf cs'.flatten st.tor.info.pieceLen.toNat k) = range st.tor.info.hashes (20 * k) 20))) ∧
      (∀ k : Nat, k < st.tor.info.numPieces →
        (∀ d, IsWrite w.H st.tor.info.hashes st.tor.info.numPieces calls k d →
          d = pieceOf (prepAll st.tor.info fs).flatten st.tor.info.pieceLen.toNat k) →
        st2.core.bf.Get k = st.core.bf.Get k ∧
          pieceOf cs'.flatten st.tor.info.pieceLen.toNat k = pieceOf (prepAll st.tor.info fs).flatten st.tor.info.pieceLen.toNat k) ∧
      (∀ (j k : Nat) (d spare : Bytes) (t : Th) (n : Nat), calls[j]? = some (.write k d spare) → s.ths[j]? = some t → t.pc = .done (.ok n) →
        (∀ d', IsWrite w.H st.tor.info.hashes st.tor.info.numPieces calls k d' → d' = d) →
        st2.core.bf.Get k = .ok true ∧ pieceOf cs'.flatten st.tor.info.pieceLen.toNat k = d) ∧
      (∀ (k : Nat) (d : Bytes), IsWrite w.H st.tor.info.hashes st.tor.info.numPieces calls k d →
        st2.core.bf.Get k = .ok false ∨ pieceOf cs'.flatten st.tor.info.pieceLen.toNat k = d ∨ ∃ x y, x ≠ y ∧ w.H x = w.H y) := by
  obtain ⟨⟨data, a1, a2⟩, -, a3, a4, -, a6, a7, a8, -⟩ := C71_started w o id readOk fs fs1 st h1 hs hn
  have hacc := a6.accepted
  have hst1 := a6.stored
  rw [a8] at hst1
  rw [a7] at hacc
  have hfio : st.core.fio = openedAll st.tor.info := by rw [a6.fio, a7]
  rw [hfio] at hr
  have hnd : ((st.tor.info.flist.map Entry.base).map EntryBase.localPath).Nodup := by rw [List.map_map]; exact hs.distinct
  obtain ⟨cs', hstored, hother, -, -⟩ := C74_bytes w.H _ _ _ _ hacc hnd fs1 _ hst1 calls hz faulty s hr
  obtain ⟨b1, b2⟩ := attempts_keep hs ha
  -- the torrent file is the same
  have hnotin : o.input ∉ (st.tor.info.flist.map Entry.base).map EntryBase.localPath := by
    rw [List.map_map]
    intro hm
    obtain ⟨e, he, heq⟩ := List.mem_map.mp hm
    exact hin e he heq.symm
  have hinput : fs2 o.input = some data := by rw [b2 _ hin, hother _ hnotin, a3 _ hin, a1]
  obtain ⟨data2, -, c1, c2, -, -⟩ := started_parts h2
  rw [ho.1, hinput] at c1
  cases c1
  rw [hw.1, hw.2, ho.2, a2] at c2
  have htor : st2.tor = st.tor := by
    simp only [Res.ok.injEq] at c2
    exact c2.symm
  refine ⟨htor, cs', ?_⟩
  obtain ⟨-, -, -, d4, -, d6, d7, d8, -⟩ := C71_started w2 o2 id2 readOk2 fs2 fs3 st2 h2 (by rw [htor]; exact hs) (by rw [htor]; exact hn)
  -- the contents found by the second start
  have hprep : prepAll st.tor.info fs2 = cs' := by
    rw [← prepAll_stored hstored]
    unfold prepAll
    apply List.map_congr_left
    intro e he
    exact b1 e he
  rw [htor, hw.1, hprep] at d4
  have hst3 := d6.stored
  rw [htor, hprep, d8] at hst3
  -- all moments of the session have the same contents `cs'`
  have huniq : ∀ cs'', Stored s.sh.fs (st.tor.info.flist.map Entry.base) cs'' → cs'' = cs' := by
    intro cs'' hc
    rw [← prepAll_stored hc, ← prepAll_stored hstored]
  refine ⟨hst3, d4, ?_, ?_, ?_⟩
  · intro k hk hwr
    obtain ⟨cs'', e1, e2, -⟩ := C74_stable w.H _ _ _ _ hacc hnd fs1 _ hst1 calls hz k hwr faulty s hr
    rw [huniq _ e1] at e2
    exact ⟨by rw [d4 k hk, a4 k hk, e2], e2⟩
  · intro j k d spare t n hc ht hpc hall
    obtain ⟨cs'', e1, e2⟩ := C74_written w.H _ _ _ _ hacc hnd fs1 _ hst1 calls hz faulty s hr
    rw [huniq _ e1] at e2
    obtain ⟨k', hk', f1, -, -, f4⟩ := e2 j k d spare t n hc ht hpc
    have : k' = k := by omega
    subst this
    have hp := f4 hall
    refine ⟨?_, hp⟩
    rw [d4 k' f1.1, hp, f1.2.1]
    simp
  · intro k d hd
    rw [d4 k hd.1]
    by_cases hh : w.H (pieceOf cs'.flatten st.tor.info.pieceLen.toNat k) = range st.tor.info.hashes (20 * k) 20
    · right
      by_cases he : pieceOf cs'.flatten st.tor.info.pieceLen.toNat k = d
      · exact .inl he
      · exact .inr ⟨_, _, he, by rw [hh, hd.2.1]⟩
    · left; rw [decide_eq_false hh]

/-! ### an instance -/

open Verif.Bencode Verif.Query

/-- the client of the examples of C71 with another hash function -/
def exWorldH (H : Bytes → Bytes) : World := { exWorld with H := H }

/-- "1234" has the recorded hash, other data has not -/
def exHash (x : Bytes) : Bytes := if x = [1, 2, 3, 4] then ascii "aaaaaaaaaaaaaaaaaaaa" else []

theorem ex_loads' (H : Bytes → Bytes) : ∃ t, FromTorrentFile H (some exTorrent) [] (ascii "/w") = .ok t ∧ t.announce = ascii "a/b" ∧
    t.info.pieceLen = 4 ∧ t.info.hashes = ascii "aaaaaaaaaaaaaaaaaaaa" ∧ t.info.flist.map Entry.base = [⟨4, ascii "n", ascii "/w/n"⟩] ∧
    t.info.numPieces = 1 ∧ t.info.PieceLookup 0 = .ok [⟨0, 0, 4⟩] := by
  have hd : Decode exTorrent [] = .ok (.dict [(ascii "announce", .str (ascii "a/b")), (ascii "info", .dict Tracker.exInfo4)]) := by decide +kernel
  obtain ⟨ti, h4⟩ := Res.isOk_iff (r := FromDict Tracker.exInfo4 (ascii "/w")) (by decide +kernel)
  have h : (match FromDict Tracker.exInfo4 (ascii "/w") with
    | .ok ti => decide (ti.pieceLen = 4 ∧ ti.hashes = ascii "aaaaaaaaaaaaaaaaaaaa" ∧ ti.flist.map Entry.base = [⟨4, ascii "n", ascii "/w/n"⟩] ∧
        ti.numPieces = 1 ∧ ti.PieceLookup 0 = .ok [⟨0, 0, 4⟩])
    | _ => false) = true := by decide +kernel
  rw [h4] at h
  simp only [decide_eq_true_eq] at h
  exact ⟨_, fromTorrentFile_eq (an := ascii "a/b") (infod := Tracker.exInfo4) hd (by decide +kernel) (by decide +kernel) h4 H, rfl, h⟩

theorem ex_starts' (H : Bytes → Bytes) (fs : FS.State) (hfs : fs (ascii "/t") = some exTorrent) (t : Torrent)
    (h1 : FromTorrentFile H (some exTorrent) [] (ascii "/w") = .ok t) (h2 : t.announce = ascii "a/b") (hs : Sensible t.info) :
    ∃ st fs', NewSwarm false (exWorldH H) exOptions (List.replicate 20 65) true fs (.ok st) fs' ∧ st.tor = t := by
  have hc : NoControl t.announce := by rw [h2]; unfold NoControl; decide +kernel
  have hp : (exWorldH H).parseURL t.announce = some [] := by rw [h2]; rfl
  obtain ⟨raw, q, r1, -⟩ := Tracker.request_values (exWorldH H).parseURL t (Tracker.NewStats 0 0 0) 7000 (List.replicate 20 65) [] hc hp
  obtain ⟨resp, hr⟩ := Res.isOk_iff (r := Tracker.doRequest exWorld.v6 exWorld.parseIP
    (some (ascii "d8:completei1e10:incompletei2e8:intervali9e5:peers6:\u0001\u0002\u0003\u0004\u0000\u0050e")) []) (by decide +kernel)
  obtain ⟨⟨st, fs', e1, e2⟩, -⟩ := C71_starts (exWorldH H) exOptions (List.replicate 20 65) fs exTorrent t hfs h1 hs raw r1 resp hr
  exact ⟨st, fs', e1, e2⟩

/-- the hypotheses of `C86_restart` are met: two of the four bytes of the piece have been written when the process dies -/
example : ∃ (fs1 fs3 : FS.State) (st st2 : Started) (s : St),
    NewSwarm false (exWorldH exHash) exOptions (List.replicate 20 65) true exDisk (.ok st) fs1 ∧ Sensible st.tor.info ∧
    st.tor.info.numPieces < 2 ^ 32 ∧ (∀ e ∈ st.tor.info.flist, exOptions.input ≠ e.base.localPath) ∧
    Sized exHash st.tor.info.hashes st.tor.info.numPieces st.tor.info.pieceLen.toNat (prepAll st.tor.info exDisk).flatten [.write 0 [1, 2, 3, 4] []] ∧
    Reach (Step st.core.fio false) (init exHash st.tor.info fs1 [.write 0 [1, 2, 3, 4] []]) s ∧ s.sh.fs (ascii "/w/n") = some [1, 2, 0, 0] ∧
    NewSwarm false (exWorldH exHash) exOptions (List.replicate 20 65) true s.sh.fs (.ok st2) fs3 := by
  obtain ⟨t, h1, h2, h3, h4, h5, h6, h7⟩ := ex_loads' exHash
  have hbase : ∀ e ∈ t.info.flist, e.base = ⟨4, ascii "n", ascii "/w/n"⟩ := by
    intro e he
    have : e.base ∈ t.info.flist.map Entry.base := List.mem_map_of_mem he
    rwa [h5, List.mem_singleton] at this
  have hs : Sensible t.info := by
    refine ⟨by rw [h3]; decide, by rw [h3]; decide, ?_, ?_⟩
    · intro e he
      rw [hbase e he]
      decide
    · rw [show (fun e : Entry => e.base.localPath) = EntryBase.localPath ∘ Entry.base from rfl, ← List.map_map, h5]
      decide +kernel
  obtain ⟨st, fs1, e1, rfl⟩ := ex_starts' exHash exDisk (by decide +kernel) t h1 h2 hs
  obtain ⟨-, a2, a3, -, -, a6, a7, a8, -⟩ := C71_started (exWorldH exHash) exOptions _ true exDisk fs1 st e1 hs (by rw [h6]; decide)
  have hfio : st.core.fio = openedAll st.tor.info := by rw [a6.fio, a7]
  obtain ⟨e, hfl⟩ : ∃ e, st.tor.info.flist = [e] := by
    have := congrArg List.length h5
    simp only [List.length_map, List.length_cons, List.length_nil] at this
    exact List.length_eq_one_iff.mp this
  have he : e.base = ⟨4, ascii "n", ascii "/w/n"⟩ := hbase e (by rw [hfl]; simp)
  have he0 : st.tor.info.flist[0]? = some e := by rw [hfl]; rfl
  have hdisk : fs1 (ascii "/w/n") = some [0, 0, 0, 0] := by
    have := a2 0 e he0
    rw [he] at this
    exact this.trans (by decide +kernel)
  have hprep : prepAll st.tor.info exDisk = [[0, 0, 0, 0]] := by
    unfold prepAll
    rw [hfl, List.map_cons, List.map_nil, he]
    decide +kernel
  have hin : ∀ e ∈ st.tor.info.flist, exOptions.input ≠ e.base.localPath := by
    intro e he
    rw [hbase e he]
    decide +kernel
  have hopen : e.base.localPath ∈ (openedAll st.tor.info).opened := by
    show e.base.localPath ∈ st.tor.info.flist.map fun e => e.base.localPath
    rw [hfl]; simp
  have hstart : FileConc.start exHash st.tor.info (.write 0 [1, 2, 3, 4] []) = ⟨true, [1, 2, 3, 4], [⟨0, 0, 4⟩], 0, .top⟩ := by
    have hh : st.tor.info.PieceHash 0 = .ok (ascii "aaaaaaaaaaaaaaaaaaaa") := by
      unfold TorInfo.PieceHash
      rw [h4]
      decide +kernel
    show startWrite exHash st.tor.info 0 [1, 2, 3, 4] [] = _
    unfold startWrite
    rw [h7]
    simp only
    rw [hh]
    rfl
  have r0 : Reach (Step (openedAll st.tor.info) false) (init exHash st.tor.info fs1 [.write 0 [1, 2, 3, 4] []])
      (init exHash st.tor.info fs1 [.write 0 [1, 2, 3, 4] []]) := .refl
  have hi : init exHash st.tor.info fs1 [.write 0 [1, 2, 3, 4] []] =
      ⟨⟨fs1, fun _ => 0, fun _ => false⟩, [⟨true, [1, 2, 3, 4], [⟨0, 0, 4⟩], 0, .top⟩]⟩ := by
    unfold init
    rw [List.map_cons, List.map_nil, hstart]
  have r1 := Reach.tail _ _ r0 (by
    rw [hi]
    exact .mk _ 0 _ _ _ rfl (.announce _ _ ⟨0, 0, 4⟩ [] e rfl rfl ⟨by decide, by decide⟩ he0 hopen rfl rfl))
  have r2 := Reach.tail _ _ r1 (.mk _ 0 _ _ _ rfl (.lock _ _ ⟨0, 0, 4⟩ [] e rfl rfl he0 rfl))
  have r3 := Reach.tail _ _ r2 (.mk _ 0 _ _ _ rfl (.put _ _ ⟨0, 0, 4⟩ [] e 0 2 [0, 0, 0, 0] rfl rfl he0 rfl (by rw [he]; exact hdisk) (by decide)
    (by decide) (by decide)))
  have hfs2 : ∀ fs : FS.State, fs.set e.base.localPath [1, 2, 0, 0] (ascii "/t") = fs (ascii "/t") := by
    intro fs
    unfold FS.State.set
    rw [he, if_neg (by decide +kernel)]
  obtain ⟨st2, fs3, e3, -⟩ := ex_starts' exHash (fs1.set e.base.localPath [1, 2, 0, 0])
    (by rw [hfs2]; exact (a3 exOptions.input hin).trans (by decide +kernel)) st.tor h1 h2 hs
  refine ⟨fs1, fs3, st, st2, _, e1, hs, by rw [h6]; decide, hin, ?_, by rw [hfio]; exact r3, ?_, e3⟩
  · rw [h4, h6, h3, hprep]
    constructor
    · rintro i d ⟨g1, g2, spare, g3⟩
      simp only [List.mem_singleton, Call.write.injEq] at g3
      obtain ⟨g3, rfl, -⟩ := g3
      have : i = 0 := by omega
      subst this; decide
    · intro i buf g
      simp at g
  · show (fs1.set e.base.localPath _) (ascii "/w/n") = _
    unfold FS.State.set
    rw [he, if_pos rfl]
    decide

end Verif.Startup
