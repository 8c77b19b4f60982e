import Verif.Spec.Changed
import Verif.Props.MsgWire
/-
Property C97: files that are changed by other programs while the client runs.
-/
set_option autoImplicit false

namespace Verif.MsgHandler
open Verif.P2P Verif.Bf Verif.Files Verif.FileIO Verif.PieceTracker Verif.Layout Verif.Bits Verif.Wire Verif.Avail Verif.Session Verif.Changed

theorem fit_length (n : Nat) (d : Bytes) : (fit n d).length = n := by
  unfold fit
  rw [List.length_append, List.length_take, List.length_replicate]
  omega

/-- within the file and the length nothing is changed -/
theorem range_fit (n : Nat) (d : Bytes) (s r : Nat) (h1 : s + r ≤ d.length) (h2 : s + r ≤ n) : range (fit n d) s r = range d s r := by
  apply List.ext_getElem?
  intro j
  rw [getElem?_range, getElem?_range]
  split
  · unfold fit
    rw [List.getElem?_append_left (by rw [List.length_take]; omega), List.getElem?_take, if_pos (by omega)]
  · rfl

theorem startPos_unique (ls : List Nat) (j k x : Nat) (h1 : startPos ls j ≤ x) (h2 : x < startPos ls (j + 1)) (h3 : startPos ls k ≤ x) (h4 : x < startPos ls (k + 1)) :
    j = k := by
  rcases Nat.lt_trichotomy j k with h | h | h
  · have := startPos_mono ls (show j + 1 ≤ k by omega); omega
  · exact h
  · have := startPos_mono ls (show k + 1 ≤ j by omega); omega

theorem consec_end {ls : List Nat} {a b : Nat} {locs : List PieceLocation} (h : Consec ls a locs b) (ha : a ≤ total ls) : b ≤ total ls := by
  induction h with
  | nil => exact ha
  | cons x y k s r rest e1 e0 e2 _ ih =>
    refine ih ?_
    have := startPos_le_total ls (k + 1)
    omega

theorem fitAll_lens (ls : List Nat) (ds : List Bytes) (h : ds.length = ls.length) : (fitAll ls ds).map List.length = ls := by
  unfold fitAll
  induction ls generalizing ds with
  | nil => rfl
  | cons n ls ih =>
    cases ds with
    | nil => cases h
    | cons d ds =>
      rw [List.zipWith_cons_cons, List.map_cons, fit_length, ih ds (by simpa using h)]

/-- the loop of `ReadPiece` over files with any contents -/
theorem readLoop_any {fs : FS.State} {fio : FileIO} {files : List EntryBase} {ds : List Bytes} (hfl : ∀ k : Nat, (fio.torInfo.flist[k]?).map Entry.base = files[k]?)
    (hdl : ds.length = files.length)
    (hdisk : ∀ (k : Nat) (f : EntryBase) (d : Bytes), files[k]? = some f → ds[k]? = some d → fs f.localPath = some d ∧ f.localPath ∈ fio.opened)
    {a b : Nat} {locs : List PieceLocation} (hc : Consec (lens files) a locs b) (off : Nat) (buf : Bytes) (hbuf : off + (b - a) ≤ buf.length) :
    ((∀ (k x : Nat) (d : Bytes), ds[k]? = some d → startPos (lens files) k ≤ x → x < startPos (lens files) (k + 1) → a ≤ x → x < b → x - startPos (lens files) k < d.length) →
      readLoop fs fio locs off buf = .ok (off + (b - a), splice buf off (range (fitAll (lens files) ds).flatten a (b - a)))) ∧
    (∀ (k x : Nat) (d : Bytes), ds[k]? = some d → startPos (lens files) k ≤ x → x < startPos (lens files) (k + 1) → a ≤ x → x < b → ¬ x - startPos (lens files) k < d.length →
      readLoop fs fio locs off buf = .err .eof) := by
  have hfa : (fitAll (lens files) ds).map List.length = lens files := fitAll_lens _ _ (by simp [lens, hdl])
  have htot : (fitAll (lens files) ds).flatten.length = total (lens files) := by rw [List.length_flatten, hfa]; rfl
  induction hc generalizing off buf with
  | nil a =>
    constructor
    · intro _; rw [readLoop]; simp [range, splice_nil]
    · intro k x d _ _ _ h1 h2; omega
  | cons a b k s r rest e1 e0 e2 hr ih =>
    have hle := hr.le
    have hk : k < files.length := by simpa [lens] using e0
    have hf : files[k]? = some files[k] := List.getElem?_eq_getElem hk
    have hd : ds[k]? = some ds[k] := List.getElem?_eq_getElem (by omega)
    obtain ⟨e, he, hb⟩ : ∃ e, fio.torInfo.flist[k]? = some e ∧ e.base = files[k] := by
      have := hfl k
      rw [hf] at this
      cases he : fio.torInfo.flist[k]? with
      | none => rw [he] at this; cases this
      | some e => rw [he] at this; exact ⟨e, rfl, Option.some.inj this⟩
    obtain ⟨h1, h2⟩ := hdisk k _ _ hf hd
    rw [← hb] at h1 h2
    generalize ds[k] = d at hd h1
    have hls : (lens files)[k]? = some files[k].length.toNat := by simp [lens, hf]
    have hs := startPos_succ (lens files) k _ hls
    rw [readLoop, he]
    simp only [Int.toNat_natCast]
    rw [if_neg (by omega), if_pos h2, h1]
    simp only
    rw [if_neg (by omega)]
    by_cases hshort : d.length < s + r ∧ 0 < (r : Int)
    · rw [if_pos hshort]
      refine ⟨fun hall => ?_, fun _ _ _ _ _ _ _ _ _ => rfl⟩
      have := hall k (a + r - 1) d hd (by omega) (by omega) (by omega) (by omega)
      omega
    · rw [if_neg hshort, show (d.drop s).take r = range d s r from rfl, overwrite_splice]
      have hrl : (range d s r).length = r := by
        by_cases h0 : r = 0
        · subst h0; simp [range]
        · exact range_length d s r (by omega)
      obtain ⟨ih1, ih2⟩ := ih (off + r) (splice buf off (range d s r)) (by rw [splice_length _ _ _ (by omega)]; omega)
      constructor
      · intro hall
        rw [ih1 (fun k x d h1 h2 h3 h4 h5 => hall k x d h1 h2 h3 (by omega) h5)]
        have hrange : range d s r = range (fitAll (lens files) ds).flatten a r := by
          by_cases h0 : r = 0
          · subst h0; simp [range]
          · have hg : (fitAll (lens files) ds)[k]? = some (fit files[k].length.toNat d) := by
              unfold fitAll; rw [List.getElem?_zipWith, hls, hd]
            rw [← e1]
            have := range_flatten (fitAll (lens files) ds) k _ hg s r (by rw [fit_length]; omega)
            rw [hfa] at this
            rw [this, range_fit _ _ _ _ (by omega) (by omega)]
        have hflen : b ≤ (fitAll (lens files) ds).flatten.length := by
          rw [htot]
          refine consec_end hr ?_
          have := startPos_le_total (lens files) (k + 1)
          omega
        have hr2 : (range (fitAll (lens files) ds).flatten (a + r) (b - (a + r))).length = b - (a + r) := range_length _ _ _ (by omega)
        have := splice_splice buf off (range d s r) (range (fitAll (lens files) ds).flatten (a + r) (b - (a + r))) (by omega)
        rw [hrl] at this
        rw [this, hrange, range_append, show r + (b - (a + r)) = b - a by omega]
        congr 2
        omega
      · intro k0 x d0 hd0 g1 g2 g3 g4 g5
        refine ih2 k0 x d0 hd0 g1 g2 ?_ g4 g5
        by_cases hx : x < a + r
        · have := startPos_unique (lens files) k k0 x (by omega) (by omega) g1 g2
          subst this
          rw [hd] at hd0
          cases hd0
          omega
        · omega

/-- reading a piece of files with any contents -/
theorem readPiece_any {pl : Nat} {hashes : Bytes} {files : List EntryBase} {ti : TorInfo} (h : Accepted pl hashes files ti) (fs : FS.State) (ds : List Bytes)
    (hr : Replaced fs (files.map EntryBase.localPath) ds) (i : Nat) (hi : i < ti.numPieces) (buf : Bytes) (hb : buf.length = pl) :
    (Present (lens files) pl i ds → ∃ n, ReadPiece fs (openedAll ti) i buf = .ok (n, filled pl (fitAll (lens files) ds) i buf)) ∧
    (¬ Present (lens files) pl i ds → ReadPiece fs (openedAll ti) i buf = .err .eof) := by
  obtain ⟨locs, h1, h2⟩ := h.locs i hi
  obtain ⟨hl, hd⟩ := hr
  have hdl : ds.length = files.length := by simpa using hl
  have hfa : (fitAll (lens files) ds).map List.length = lens files := fitAll_lens _ _ (by simp [lens, hdl])
  have htot : (fitAll (lens files) ds).flatten.length = total (lens files) := by rw [List.length_flatten, hfa]; rfl
  obtain ⟨-, -, hfl⟩ := h.np
  have hbase : ∀ k : Nat, ((openedAll ti).torInfo.flist[k]?).map Entry.base = files[k]? := by
    intro k
    show (ti.flist[k]?).map Entry.base = _
    rw [hfl, entriesFrom_get]
    cases files[k]? with
    | none => rfl
    | some f =>
      simp only [Option.map_some]
      congr 1
      unfold entryAt; split
      · rfl
      · split <;> rfl
  have hdisk : ∀ (k : Nat) (f : EntryBase) (d : Bytes), files[k]? = some f → ds[k]? = some d → fs f.localPath = some d ∧ f.localPath ∈ (openedAll ti).opened := by
    intro k f d hf hdk
    refine ⟨hd k _ d (by rw [List.getElem?_map, hf]; rfl) hdk, ?_⟩
    have := hbase k
    rw [hf] at this
    cases he : (openedAll ti).torInfo.flist[k]? with
    | none => rw [he] at this; cases this
    | some e =>
      rw [he] at this
      rw [← Option.some.inj this]
      exact List.mem_map.mpr ⟨e, List.mem_of_getElem? he, rfl⟩
  obtain ⟨e1, e2⟩ := covered_range (fitAll (lens files) ds).flatten pl i
  rw [htot] at e1 e2
  have hple : (pieceOf (fitAll (lens files) ds).flatten pl i).length ≤ pl := by rw [pieceOf_length]; omega
  obtain ⟨r1, r2⟩ := readLoop_any hbase hdl hdisk h2 0 buf (by omega)
  have h1' : (openedAll ti).torInfo.PieceLookup i = .ok locs := h1
  have hpos := h.pos
  have hin : ∀ x, (i * pl ≤ x ∧ x < (i + 1) * pl) ↔ x / pl = i := by
    intro x
    rw [Nat.div_eq_iff hpos]
    have : (i + 1) * pl = i * pl + pl := by rw [Nat.add_mul]; omega
    omega
  constructor
  · intro hp
    refine ⟨(pieceOf (fitAll (lens files) ds).flatten pl i).length, ?_⟩
    unfold ReadPiece
    rw [h1', Res.ok_bind, r1]
    · rw [e1, Nat.zero_add, e2]; simp [splice, filled]
    · intro k x d g1 g2 g3 g4 g5
      refine hp k x d g1 g2 g3 ((hin x).mp ⟨g4, ?_⟩)
      unfold covered at g5; omega
  · intro hp
    unfold ReadPiece
    rw [h1', Res.ok_bind]
    unfold Present at hp
    simp only [Classical.not_forall] at hp
    obtain ⟨k, x, d, g1, g2, g3, g4, g5⟩ := hp
    have := (hin x).mpr g4
    refine r2 k x d g1 g2 g3 this.1 ?_ g5
    have := startPos_le_total (lens files) (k + 1)
    unfold covered
    omega

/-- **C97** (partial: it says exactly what happens).  The client has started with any contents of its files, and then other programs have replaced
these by `ds`, of any lengths.  A request for a piece that the client believes to have is answered from what is in the files now, if all bytes
of the piece are there; otherwise the connection ends and nothing is sent.  All other requests are treated as before.
Missing from the property: that the data sent still has the recorded hash. -/
theorem C97_exact_partial {pl : Nat} {hashes : Bytes} {files : List EntryBase} {cs : List Bytes} {s : Swarm} {st : St}
    (h : Running pl hashes files cs s st.buf) (fs : FS.State) (ds : List Bytes) (hr : Replaced fs (files.map EntryBase.localPath) ds)
    (i b l : UInt32) (wok : Bool) :
    (i.toNat < s.tor.numPieces ∧ ours s i.toNat = true →
      (Present (lens files) pl i.toNat ds →
        handleRequest { s with fs := fs } i b l wok st =
          if b.toNat + l.toNat ≤ pl then
            if wok then ({ st with buf := filled pl (fitAll (lens files) ds) i.toNat st.buf,
                                   out := st.out ++ [wire (.piece i b (range (filled pl (fitAll (lens files) ds) i.toNat st.buf) b.toNat l.toNat))] }, .ok ())
            else ({ st with buf := filled pl (fitAll (lens files) ds) i.toNat st.buf }, .err .os)
          else ({ st with buf := filled pl (fitAll (lens files) ds) i.toNat st.buf }, .panic)) ∧
      (¬ Present (lens files) pl i.toNat ds → handleRequest { s with fs := fs } i b l wok st = (st, .err .eof))) ∧
    (¬ (i.toNat < s.tor.numPieces ∧ ours s i.toNat = true) → handleRequest { s with fs := fs } i b l wok st = handleRequest s i b l wok st) := by
  constructor
  · rintro ⟨hi, ho⟩
    have hms : mayServe { s with fs := fs } i.toNat = .ok true := by
      unfold mayServe
      rw [(get_ours h i.toNat hi).mpr ho]; split <;> rfl
    obtain ⟨p1, p2⟩ := readPiece_any h.accepted fs ds hr i.toNat hi st.buf h.buf
    constructor
    · intro hp
      obtain ⟨n, hn⟩ := p1 hp
      have hlen : (filled pl (fitAll (lens files) ds) i.toNat st.buf).length = pl := filled_length pl _ _ _ h.buf
      have ha := answer_spec (filled pl (fitAll (lens files) ds) i.toNat st.buf) i b l pl h.small hlen
      unfold handleRequest
      rw [hms]
      simp only [h.fio, hn, ha]
      by_cases hbl : b.toNat + l.toNat ≤ pl
      · simp only [hbl, if_true]
      · simp only [hbl, if_false]
    · intro hp
      unfold handleRequest
      rw [hms]
      simp only [h.fio, p2 hp]
  · intro hno
    have hms : mayServe { s with fs := fs } i.toNat = mayServe s i.toNat := rfl
    have hrd : ¬ i.toNat < s.tor.numPieces → ∀ fs', ReadPiece fs' s.fio i.toNat st.buf = .err .other := by
      intro hi fs'
      unfold ReadPiece
      rw [h.fio]
      have := C23_out_of_range s.tor i.toNat (.inr (by omega))
      show (openedAll s.tor).torInfo.PieceLookup _ >>= _ = _
      rw [show (openedAll s.tor).torInfo = s.tor from rfl, this]; rfl
    unfold handleRequest
    rw [hms]
    by_cases hi : i.toNat < s.tor.numPieces
    · have hg : s.bf.Get i.toNat ≠ .ok true := fun e => hno ⟨hi, (get_ours h i.toNat hi).mp e⟩
      cases hm : mayServe s i.toNat with
      | ok v =>
        cases v with
        | true =>
          unfold mayServe at hm
          by_cases hc : s.bf.Complete = true
          · exact absurd (complete_get h _ hi hc) hg
          · rw [if_neg hc] at hm; exact absurd hm hg
        | false => rfl
      | err e => rfl
      | panic => rfl
      | timeout => rfl
    · simp only [hrd hi]

/-- **C97**: whatever others do to the contents of the files, the client does not crash because of it: a request that crashes it then would have crashed it
anyway. -/
theorem C97_no_crash {pl : Nat} {hashes : Bytes} {files : List EntryBase} {cs : List Bytes} {s : Swarm} {st : St}
    (h : Running pl hashes files cs s st.buf) (fs : FS.State) (ds : List Bytes) (hr : Replaced fs (files.map EntryBase.localPath) ds)
    (i b l : UInt32) (wok : Bool) (hp : (handleRequest { s with fs := fs } i b l wok st).2 = .panic) : (handleRequest s i b l wok st).2 = .panic := by
  obtain ⟨h1, h2⟩ := C97_exact_partial h fs ds hr i b l wok
  by_cases hio : i.toNat < s.tor.numPieces ∧ ours s i.toNat = true
  · obtain ⟨h3, h4⟩ := h1 hio
    by_cases hpr : Present (lens files) pl i.toNat ds
    · rw [h3 hpr] at hp
      have hg := (get_ours h i.toNat hio.1).mpr hio.2
      rw [handleRequest_spec h, if_pos hio.1, if_pos hg]
      by_cases hbl : b.toNat + l.toNat ≤ pl
      · rw [if_pos hbl] at hp
        cases wok
        · rw [if_neg (by decide)] at hp; cases hp
        · rw [if_pos rfl] at hp; cases hp
      · rw [if_neg hbl]
    · rw [h4 hpr] at hp; cases hp
  · rw [h2 hio] at hp; exact hp

/-- **C97** is false: whatever piece a client has, any bytes of the right number can be put into its files in the piece's place, and these bytes are
what it sends when asked for the piece. -/
theorem C97_refuted {pl : Nat} {hashes : Bytes} {files : List EntryBase} {cs : List Bytes} {s : Swarm} {st : St}
    (h : Running pl hashes files cs s st.buf) (hnd : (files.map EntryBase.localPath).Nodup) (i : UInt32) (hi : i.toNat < s.tor.numPieces) (ho : ours s i.toNat = true)
    (x : Bytes) (hx : x.length = (pieceOf cs.flatten pl i.toNat).length) :
    ∃ fs ds, Replaced fs (files.map EntryBase.localPath) ds ∧ ds.map List.length = cs.map List.length ∧
      (∀ j, j ≠ i.toNat → pieceOf ds.flatten pl j = pieceOf cs.flatten pl j) ∧
      (handleRequest { s with fs := fs } i 0 (UInt32.ofNat x.length) true st).1.out = st.out ++ [wire (.piece i 0 x)] ∧
      (handleRequest { s with fs := fs } i 0 (UInt32.ofNat x.length) true st).2 = .ok () := by
  have hsm := h.small
  have hxl : x.length ≤ pl := by rw [hx, pieceOf_length]; omega
  obtain ⟨fs, ds, -, w2, w3, w4, -⟩ := C26_write (fun _ => range hashes (20 * i.toNat) 20) pl hashes files s.tor h.accepted hnd s.fs cs h.stored i.toNat hi x [] rfl hx
  have hrun : Running pl hashes files ds { s with fs := fs } st.buf := ⟨h.accepted, h.small, h.fio, w2, h.bf, h.nbits, h.buf⟩
  have hxn : (UInt32.ofNat x.length).toNat = x.length := by
    rw [UInt32.toNat_ofNat']; omega
  have hz : (0 : UInt32).toNat = 0 := rfl
  have hs := handleRequest_spec (st := st) hrun i 0 (UInt32.ofNat x.length) true
  rw [if_pos hi, if_pos ((get_ours h i.toNat hi).mpr ho), if_pos (by rw [hxn, hz]; omega), if_pos rfl, hxn, hz] at hs
  refine ⟨fs, ds, ⟨?_, ?_⟩, by rw [w2.1, h.stored.1], w4, ?_, by rw [hs]⟩
  · have := congrArg List.length w2.1
    simpa [lens] using this
  · intro k p d hp hd
    rw [List.getElem?_map] at hp
    cases hf : files[k]? with
    | none => rw [hf] at hp; cases hp
    | some f =>
      rw [hf] at hp
      rw [← Option.some.inj hp]
      exact w2.2 k f d hf hd
  · rw [hs]
    simp only [filled, range, w3, List.drop_zero, List.take_left]

/-- C97, an example: the client of `exRunning` has piece 1 (bytes 5 to 8); its third file has been cut to two bytes and the first one changed.  Piece 1 is not all
there any more, piece 0 is -/
example : ∃ s, Running 4 exHashes exFiles [[1, 2, 3, 4, 5], [], [6, 7, 8, 9, 10, 11, 12, 13]] s [91, 92, 93, 94] ∧ ours s 1 = true ∧ s.tor.numPieces = 4 ∧
    Replaced (fun p => if p = ascii "a" then some [9, 9, 9, 9, 9, 9] else if p = ascii "e" then some [] else if p = ascii "b" then some [7, 7] else none)
      (exFiles.map EntryBase.localPath) [[9, 9, 9, 9, 9, 9], [], [7, 7]] ∧
    (exFiles.map EntryBase.localPath).Nodup ∧
    ¬ Present (lens exFiles) 4 1 [[9, 9, 9, 9, 9, 9], [], [7, 7]] ∧ Present (lens exFiles) 4 0 [[9, 9, 9, 9, 9, 9], [], [7, 7]] := by
  obtain ⟨s, h, hn, hb, hc, h1, h3, h0⟩ := exRunning
  refine ⟨s, h, (get_ours h 1 (by rw [hn]; decide)).mp h1, hn, ⟨by decide, ?_⟩, by decide +kernel, ?_, ?_⟩
  · intro k p d hp hd
    match k with
    | 0 => cases hp; cases hd; decide
    | 1 => cases hp; cases hd; decide
    | 2 => cases hp; cases hd; decide
    | k + 3 => cases hd
  · intro hp
    have := hp 2 7 [7, 7] rfl (by decide) (by decide) (by decide)
    revert this; decide
  · intro k x d hd g1 g2 g3
    have hx : x < 4 := by omega
    match k with
    | 0 => cases hd; show x - 0 < 6; omega
    | 1 => revert g1 g2; show 5 ≤ x → x < 5 → _; omega
    | 2 => revert g1; show 5 ≤ x → _; omega
    | k + 3 => cases hd

end Verif.MsgHandler
