import Verif.Lemmas.PieceOrder
import Verif.Lemmas.LayoutContent
/-
Properties C21 – C25: the layout of files in the piece space.

`lens files` are the file lengths, `startPos (lens files) k` is the position of the first byte of file `k` in the
concatenation of all files (Spec/Layout.lean).
-/
set_option autoImplicit false

namespace Verif.Files
open Verif.Layout

/-- three files, one of them empty, used in the examples -/
def exFiles : List EntryBase :=
  [MakeFileEntry (ascii "a") 5, MakeFileEntry (ascii "e") 0, MakeFileEntry (ascii "b") 8]

theorem exFiles_nonneg : ∀ f ∈ exFiles, 0 ≤ f.length := by decide

/-! ## C21 -/

/-- **C21**.  For non-negative lengths and a positive piece length `MakeFileList` yields one entry per file, in
order; start piece and start offset are quotient and remainder of the position of the file's first byte; for a
non-empty file the inclusive end piece and offset are quotient and remainder of the position of its last byte. -/
theorem C21_positions (files : List EntryBase) (hf : ∀ f ∈ files, 0 ≤ f.length) (pl : Nat) (hpl : 0 < pl) :
    ∃ fl, MakeFileList files pl = .ok fl ∧ fl.length = files.length ∧
      ∀ (k : Nat) (f : EntryBase), files[k]? = some f → ∃ e, fl[k]? = some e ∧ e.base = f ∧
        (e.startPiece = (startPos (lens files) k / pl : Nat) ∧ e.startOff = (startPos (lens files) k % pl : Nat)) ∧
        (0 < f.length → e.endPiece = ((startPos (lens files) (k + 1) - 1) / pl : Nat) ∧
          e.endOff = ((startPos (lens files) (k + 1) - 1) % pl : Nat)) := by
  refine ⟨_, makeFileList_eq pl hpl files hf, entriesFrom_length _ _ _, ?_⟩
  intro k f hk
  have hs := startPos_succ _ k _ (lens_get files k f hk)
  refine ⟨entryAt pl (startPos (lens files) k) f, ?_, ?_, ⟨?_, ?_⟩, ?_⟩
  · rw [entriesFrom_get, hk]; simp
  · unfold entryAt; split
    · rfl
    · split <;> rfl
  · unfold entryAt; split
    · rfl
    · split <;> rfl
  · unfold entryAt; split
    · rfl
    · split <;> rfl
  · intro hpos
    unfold entryAt
    rw [if_pos hpos, hs]
    exact ⟨rfl, rfl⟩

example : ∃ fl, MakeFileList exFiles (4 : Nat) = .ok fl ∧
    fl.map (fun e => (e.startPiece, e.startOff, e.endPiece, e.endOff)) = [(0, 0, 1, 0), (1, 1, 1, 0), (1, 1, 3, 0)] :=
  ⟨_, makeFileList_eq 4 (by decide) exFiles exFiles_nonneg, by decide⟩

/-- **C21**, empty files: the "last byte" of an empty file is the byte before its start. -/
theorem C21_empty_files (files : List EntryBase) (hf : ∀ f ∈ files, 0 ≤ f.length) (pl : Nat) (hpl : 0 < pl)
    (fl : List Entry) (hfl : MakeFileList files pl = .ok fl) (k : Nat) (f : EntryBase) (hk : files[k]? = some f)
    (h0 : f.length = 0) (e : Entry) (he : fl[k]? = some e) :
    e.endPiece * pl + e.endOff = (startPos (lens files) k : Int) - 1 := by
  rw [makeFileList_eq pl hpl files hf] at hfl
  cases hfl
  rw [entriesFrom_get, hk] at he
  simp only [Option.map_some, Option.some.injEq, Nat.zero_add] at he
  subst he
  unfold entryAt
  rw [if_neg (by omega)]
  have hd := Nat.div_add_mod (startPos (lens files) k) pl
  split
  · rename_i h1
    subst h1
    simp
  · simp only
    rw [Nat.mul_comm] at hd
    have : ((startPos (lens files) k / pl : Nat) : Int) * (pl : Int) = ((startPos (lens files) k / pl * pl : Nat) : Int) := by
      rw [Int.natCast_mul]
    rw [this]
    omega

example : exFiles[1]? = some (MakeFileEntry (ascii "e") 0) ∧ (MakeFileEntry (ascii "e") 0).length = 0 ∧
    ∃ fl e, MakeFileList exFiles (1 : Nat) = .ok fl ∧ fl[1]? = some e ∧ e.endPiece = 4 :=
  ⟨by decide, by decide, _, _, makeFileList_eq 1 (by decide) exFiles exFiles_nonneg, rfl, by decide⟩

/-! ## C22 -/

/-- file `k` belongs to piece `p`: it owns a byte of it, or it is empty and lies in the piece (with piece length 1
empty files belong to no piece) -/
def InPiece (files : List EntryBase) (pl k : Nat) (p : Int) : Prop :=
  ∃ f q, files[k]? = some f ∧ p = ((q : Nat) : Int) ∧
    (Owns (lens files) pl k q ∨ (f.length = 0 ∧ 1 < pl ∧ startPos (lens files) k / pl = q))

/-- what a hit of GetFiles means -/
theorem hit_iff (files : List EntryBase) (hf : ∀ f ∈ files, 0 ≤ f.length) (pl : Nat) (hpl : 0 < pl) (p : Int) (k : Nat) :
    InPiece files pl k p ↔
      ∃ e, (entriesFrom pl 0 files)[k]? = some e ∧ e.startPiece ≤ p ∧ p ≤ e.endPiece := by
  constructor
  · rintro ⟨f, q, hk, rfl, h⟩
    have hs := startPos_succ _ k _ (lens_get files k f hk)
    refine ⟨entryAt pl (startPos (lens files) k) f, by rw [entriesFrom_get, hk]; simp, ?_⟩
    rcases h with ⟨b, h1, h2, rfl⟩ | ⟨h0, h1, rfl⟩
    · have hpos : f.length > 0 := by omega
      unfold entryAt
      rw [if_pos hpos]
      have a := Nat.div_le_div_right (c := pl) h1
      have b' := Nat.div_le_div_right (c := pl) (show b ≤ startPos (lens files) k + f.length.toNat - 1 by omega)
      exact ⟨Int.ofNat_le.mpr a, Int.ofNat_le.mpr b'⟩
    · unfold entryAt
      rw [if_neg (by omega), if_neg (by omega)]
      exact ⟨Int.le_refl _, Int.le_refl _⟩
  · rintro ⟨e, he, h1, h2⟩
    rw [entriesFrom_get] at he
    cases hk : files[k]? with
    | none => rw [hk] at he; cases he
    | some f =>
      rw [hk] at he
      simp only [Option.map_some, Option.some.injEq, Nat.zero_add] at he
      subst he
      have hfn := hf f (List.mem_of_getElem? hk)
      have hs := startPos_succ _ k _ (lens_get files k f hk)
      unfold entryAt at h1 h2
      by_cases hpos : f.length > 0
      · rw [if_pos hpos] at h1 h2
        simp only at h1 h2
        obtain ⟨q, rfl⟩ : ∃ q : Nat, p = q := ⟨p.toNat, by
          have := Int.natCast_nonneg (startPos (lens files) k / pl); omega⟩
        have h1 := Int.ofNat_le.mp h1
        have h2 := Int.ofNat_le.mp h2
        refine ⟨f, q, hk, rfl, .inl ⟨max (startPos (lens files) k) (q * pl), by omega, ?_, ?_⟩⟩
        · rw [Nat.le_div_iff_mul_le hpl] at h2
          omega
        · have hlt : startPos (lens files) k < (q + 1) * pl := by
            rw [← Nat.div_lt_iff_lt_mul hpl]; omega
          rw [Nat.div_eq_iff hpl]
          rw [Nat.add_mul] at hlt
          omega
      · rw [if_neg hpos] at h1 h2
        by_cases hp1 : pl = 1
        · rw [if_pos hp1] at h1 h2
          simp only at h1 h2
          omega
        · rw [if_neg hp1] at h1 h2
          simp only at h1 h2
          exact ⟨f, startPos (lens files) k / pl, hk, by omega, .inr ⟨by omega, by omega, rfl⟩⟩

theorem hit_convex (files : List EntryBase) (hf : ∀ f ∈ files, 0 ≤ f.length) (pl : Nat) (hpl : 0 < pl) (p : Int)
    (i k j : Nat) (hik : i ≤ k) (hkj : k ≤ j) (hi : InPiece files pl i p) (hj : InPiece files pl j p) :
    InPiece files pl k p := by
  rcases Nat.lt_or_ge i k with hlt | hge
  rotate_left
  · have : i = k := by omega
    subst this; exact hi
  obtain ⟨fi, q, hfi, rfl, hi⟩ := hi
  obtain ⟨fj, q', hfj, hq, hj⟩ := hj
  have hqq : q' = q := by omega
  subst hqq
  have hjlt : j < files.length := (List.getElem?_eq_some_iff.mp hfj).1
  have hk : files[k]? = some files[k] := List.getElem?_eq_getElem (by omega)
  have hs := startPos_succ _ k _ (lens_get files k _ hk)
  have hsi := startPos_succ _ i _ (lens_get files i _ hfi)
  have hik' := startPos_mono (lens files) (show i + 1 ≤ k by omega)
  have hkj' := startPos_mono (lens files) hkj
  -- a position ≥ q*pl at or before the start of k, and the start of j is in or before piece q
  have hlow : q' ≤ startPos (lens files) k / pl := by
    rcases hi with ⟨b, -, b2, rfl⟩ | ⟨-, -, rfl⟩
    · exact Nat.div_le_div_right (by omega)
    · exact Nat.div_le_div_right (by omega)
  have hhigh : startPos (lens files) j / pl ≤ q' := by
    rcases hj with ⟨b, b1, -, rfl⟩ | ⟨-, -, rfl⟩
    · exact Nat.div_le_div_right b1
    · exact Nat.le_refl _
  have hkq : startPos (lens files) k / pl = q' := by
    have := Nat.div_le_div_right (c := pl) hkj'
    omega
  have hkn := hf _ (List.mem_of_getElem? hk)
  by_cases h0 : files[k].length = 0
  · by_cases hp1 : pl = 1
    · exfalso
      subst hp1
      rw [Nat.div_one] at hlow hhigh hkq
      rcases hi with ⟨b, -, b2, b3⟩ | ⟨-, h, -⟩
      · rw [Nat.div_one] at b3; omega
      · omega
    · exact ⟨_, q', hk, rfl, .inr ⟨h0, by omega, hkq⟩⟩
  · exact ⟨_, q', hk, rfl, .inl ⟨startPos (lens files) k, Nat.le_refl _, by omega, hkq⟩⟩

/-- **C22**.  For every piece index (also negative or too large ones) `GetFiles` returns a contiguous part of the
file list, in order, which consists of exactly the files that own a byte of the piece and the empty files that lie in it. -/
theorem C22_get_files (files : List EntryBase) (hf : ∀ f ∈ files, 0 ≤ f.length) (pl : Nat) (hpl : 0 < pl)
    (fl : List Entry) (hfl : MakeFileList files pl = .ok fl) (p : Int) :
    ∃ a n, GetFiles fl p = .ok ((fl.drop a).take n) ∧ a + n ≤ fl.length ∧
      ∀ k, (a ≤ k ∧ k < a + n) ↔ InPiece files pl k p := by
  rw [makeFileList_eq pl hpl files hf] at hfl
  cases hfl
  have hinv := getFilesLoop_inv (entriesFrom pl 0 files) p ?_ (fun k => InPiece files pl k p)
    (hit_iff files hf pl hpl p) (hit_convex files hf pl hpl p) (entriesFrom pl 0 files) 0 rfl (false, 0, 0)
    (.inl ⟨rfl, fun k hk => absurd hk (Nat.not_lt_zero _)⟩) (Nat.zero_le _)
  · generalize hst : getFilesLoop p 0 (false, 0, 0) (entriesFrom pl 0 files) = st at hinv
    have hout : ∀ k, InPiece files pl k p → k < (entriesFrom pl 0 files).length := by
      rintro k ⟨f, q, hk, -⟩
      rw [entriesFrom_length]
      exact (List.getElem?_eq_some_iff.mp hk).1
    refine ⟨st.2.1, st.2.2, ?_, ?_, ?_⟩
    · unfold GetFiles
      simp only [hst]
      rw [if_pos]
      rcases hinv with ⟨rfl, -⟩ | ⟨-, -, h, -⟩
      · simp
      · exact h
    · rcases hinv with ⟨rfl, -⟩ | ⟨-, -, h, -⟩
      · simp
      · exact h
    · intro k
      rcases hinv with ⟨rfl, h⟩ | ⟨-, -, h, h4⟩
      · refine ⟨fun hh => by simp only at hh; omega, fun hh => absurd hh (h k (hout k hh))⟩
      · exact ⟨fun hh => (h4 k (by omega)).mpr hh, fun hh => (h4 k (hout k hh)).mp hh⟩
  · intro i j e e' hij he he'
    rw [entriesFrom_get] at he he'
    cases hi : files[i]? with
    | none => rw [hi] at he; cases he
    | some f =>
      cases hj : files[j]? with
      | none => rw [hj] at he'; cases he'
      | some f' =>
        rw [hi] at he; rw [hj] at he'
        simp only [Option.map_some, Option.some.injEq, Nat.zero_add] at he he'
        subst he he'
        have st : ∀ S g, (entryAt pl S g).startPiece = (S / pl : Nat) := by
          intro S g; unfold entryAt; split
          · rfl
          · split <;> rfl
        rw [st, st]
        exact Int.ofNat_le.mpr (Nat.div_le_div_right (startPos_mono _ hij))

example : (∃ fl, MakeFileList exFiles (4 : Nat) = .ok fl) ∧ InPiece exFiles 4 0 1 ∧ InPiece exFiles 4 1 1 ∧
    InPiece exFiles 4 2 1 :=
  ⟨⟨_, makeFileList_eq 4 (by decide) exFiles exFiles_nonneg⟩,
    ⟨_, 1, rfl, rfl, .inl ⟨4, by decide, by decide, by decide⟩⟩, ⟨_, 1, rfl, rfl, .inr (by decide)⟩,
    ⟨_, 1, rfl, rfl, .inl ⟨5, by decide, by decide, by decide⟩⟩⟩

/-! ## C23, C24, C25 -/

/-- everything about NewTorInfo for non-negative file lengths and a positive piece length -/
theorem newTorInfo_ok (name : Bytes) (pl : Nat) (hpl : 0 < pl) (hashes : Bytes) (files : List EntryBase)
    (hf : ∀ f ∈ files, 0 ≤ f.length) (h20 : hashes.length % 20 = 0)
    (hn : total (lens files) ≤ hashes.length / 20 * pl) :
    ∃ pm, MakePieceMap (entriesFrom pl 0 files) (hashes.length / 20) pl (total (lens files) : Nat) = .ok pm ∧
      pm.length = hashes.length / 20 ∧
      (∀ i l, pm[i]? = some l → Consec (lens files) (i * pl) l (covered pl (total (lens files)) i)) ∧
      NewTorInfo name pl hashes files = .ok ⟨name, pl, hashes, hashes.length / 20, (total (lens files) : Nat),
        entriesFrom pl 0 files, decide (files.length = 1), pm,
        (pl : Int) - (((hashes.length / 20 : Nat) : Int) * pl - (total (lens files) : Nat))⟩ := by
  obtain ⟨pm, h1, h2, h3⟩ := (makePieceMap_spec hf (hashes.length / 20) hpl).1 hn
  refine ⟨pm, h1, h2, h3, ?_⟩
  unfold NewTorInfo
  rw [if_neg (by omega), makeFileList_eq pl hpl files hf]
  simp only [Res.ok_bind]
  rw [sum_lens files hf, h1]
  rfl

theorem newTorInfo_fail (name : Bytes) (pl : Nat) (hpl : 0 < pl) (hashes : Bytes) (files : List EntryBase)
    (hf : ∀ f ∈ files, 0 ≤ f.length) (h20 : hashes.length % 20 = 0)
    (hn : hashes.length / 20 * pl < total (lens files)) :
    ((∃ j, startPos (lens files) j = hashes.length / 20 * pl) ∧ NewTorInfo name pl hashes files = .err .other) ∨
    ((∃ j, startPos (lens files) j < hashes.length / 20 * pl ∧ hashes.length / 20 * pl < startPos (lens files) (j + 1)) ∧
      NewTorInfo name pl hashes files = .panic) := by
  have := (makePieceMap_spec hf (hashes.length / 20) hpl).2 hn
  unfold NewTorInfo
  rw [if_neg (by omega), makeFileList_eq pl hpl files hf]
  simp only [Res.ok_bind]
  rw [sum_lens files hf]
  rcases this with ⟨h, e⟩ | ⟨h, e⟩
  · rw [e]; exact .inl ⟨h, rfl⟩
  · rw [e]; exact .inr ⟨h, rfl⟩

/-- **C24**, exact characterisation for non-negative lengths and a positive piece length: the metadata is accepted
exactly if the hash string consists of whole hashes and there are *at least* as many as pieces needed.
Missing from the full property: too many hashes are accepted too, negative file lengths are not always rejected, and
some inconsistent metadata panics instead of returning an error (theorems below). -/
theorem C24_accept_iff_partial (name : Bytes) (pl : Nat) (hpl : 0 < pl) (hashes : Bytes) (files : List EntryBase)
    (hf : ∀ f ∈ files, 0 ≤ f.length) :
    (∃ ti, NewTorInfo name pl hashes files = .ok ti) ↔
      20 ∣ hashes.length ∧ needed (total (lens files)) pl ≤ hashes.length / 20 := by
  rw [needed_le_iff _ _ _ hpl]
  constructor
  · rintro ⟨ti, h⟩
    have h20 : hashes.length % 20 = 0 := by
      by_cases hc : hashes.length % 20 = 0
      · exact hc
      · unfold NewTorInfo at h; rw [if_pos hc] at h; cases h
    refine ⟨Nat.dvd_of_mod_eq_zero h20, ?_⟩
    rcases Nat.lt_or_ge (hashes.length / 20 * pl) (total (lens files)) with hlt | hge
    · rcases newTorInfo_fail name pl hpl hashes files hf h20 hlt with ⟨-, e⟩ | ⟨-, e⟩
      · rw [e] at h; cases h
      · rw [e] at h; cases h
    · exact hge
  · rintro ⟨h20, hle⟩
    obtain ⟨pm, -, -, -, h⟩ := newTorInfo_ok name pl hpl hashes files hf (Nat.mod_eq_zero_of_dvd h20) hle
    exact ⟨_, h⟩

example : 20 ∣ (List.replicate 80 (0 : UInt8)).length ∧
    needed (total (lens exFiles)) 4 ≤ (List.replicate 80 (0 : UInt8)).length / 20 := by decide

/-- **C24**, exact characterisation of the panics, same hypotheses: too few hashes make NewTorInfo panic exactly if
the end of the last hashed piece lies strictly inside of a file. -/
theorem C24_panic_iff_partial (name : Bytes) (pl : Nat) (hpl : 0 < pl) (hashes : Bytes) (files : List EntryBase)
    (hf : ∀ f ∈ files, 0 ≤ f.length) :
    NewTorInfo name pl hashes files = .panic ↔
      20 ∣ hashes.length ∧ ∃ k, startPos (lens files) k < hashes.length / 20 * pl ∧
        hashes.length / 20 * pl < startPos (lens files) (k + 1) := by
  constructor
  · intro h
    have h20 : hashes.length % 20 = 0 := by
      by_cases hc : hashes.length % 20 = 0
      · exact hc
      · unfold NewTorInfo at h; rw [if_pos hc] at h; cases h
    refine ⟨Nat.dvd_of_mod_eq_zero h20, ?_⟩
    rcases Nat.lt_or_ge (hashes.length / 20 * pl) (total (lens files)) with hlt | hge
    · rcases newTorInfo_fail name pl hpl hashes files hf h20 hlt with ⟨-, e⟩ | ⟨h', -⟩
      · rw [e] at h; cases h
      · exact h'
    · obtain ⟨pm, -, -, -, e⟩ := newTorInfo_ok name pl hpl hashes files hf h20 hge
      rw [e] at h; cases h
  · rintro ⟨h20, k, h1, h2⟩
    have htot := startPos_le_total (lens files) (k + 1)
    rcases newTorInfo_fail name pl hpl hashes files hf (Nat.mod_eq_zero_of_dvd h20) (by omega) with ⟨⟨j, e⟩, -⟩ | ⟨-, h'⟩
    · exfalso
      rcases Nat.lt_or_ge k j with h | h
      · have := startPos_mono (lens files) (show k + 1 ≤ j from h); omega
      · have := startPos_mono (lens files) h; omega
    · exact h'

/-- **C24 refuted**: one hash too many is accepted -/
theorem C24_refuted_extra_hash :
    ∃ ti, NewTorInfo (ascii "x") 4 (List.replicate 40 0) [MakeFileEntry (ascii "x") 4] = .ok ti ∧
      ti.numPieces = 2 ∧ needed 4 4 = 1 ∧ ti.PieceLookup 1 = .ok [] ∧ ti.lastPieceLen = 0 :=
  ⟨_, rfl, by decide +kernel⟩

/-- **C24 refuted**: a negative file length is accepted -/
theorem C24_refuted_negative_length :
    ∃ ti, NewTorInfo (ascii "x") 10 (List.replicate 20 0) [MakeFileEntry (ascii "x") (-1)] = .ok ti ∧ ti.length = -1 :=
  ⟨_, rfl, by decide +kernel⟩

/-- **C24 refuted**: inconsistent metadata panics (too few hashes; piece length zero) -/
theorem C24_refuted_panics :
    NewTorInfo (ascii "x") 4 (List.replicate 20 0) [MakeFileEntry (ascii "x") 9] = .panic ∧
    (∀ (name hashes : Bytes) (f : EntryBase) (fs : List EntryBase), hashes.length % 20 = 0 →
      NewTorInfo name 0 hashes (f :: fs) = .panic) := by
  refine ⟨by decide +kernel, ?_⟩
  intro name hashes f fs h
  unfold NewTorInfo MakeFileList
  rw [if_neg (by omega), if_pos ⟨rfl, by simp⟩]
  rfl

/-- **C24**, second clause: an accepted torrent records the name, piece length, hashes and total length it was given. -/
theorem C24_fields (name : Bytes) (pl : Int) (hashes : Bytes) (files : List EntryBase) (ti : TorInfo)
    (h : NewTorInfo name pl hashes files = .ok ti) :
    ti.name = name ∧ ti.pieceLen = pl ∧ ti.hashes = hashes ∧ ti.numPieces * 20 = hashes.length ∧
    ti.length = (files.map EntryBase.length).sum ∧ (ti.isSingle = true ↔ files.length = 1) ∧
    MakeFileList files pl = .ok ti.flist := by
  unfold NewTorInfo at h
  split at h
  · cases h
  · obtain ⟨fl, h1, h⟩ := Res.bind_eq_ok.mp h
    obtain ⟨pm, -, h⟩ := Res.bind_eq_ok.mp h
    cases h
    refine ⟨rfl, rfl, rfl, ?_, rfl, by simp, h1⟩
    simp only
    omega

example : ∃ ti, NewTorInfo (ascii "x") (4 : Nat) (List.replicate 80 0) exFiles = .ok ti :=
  (C24_accept_iff_partial _ 4 (by decide) _ _ exFiles_nonneg).mpr (by decide)

/-- **C23**.  If the metadata is accepted (non-negative lengths, positive piece length), then for every piece `i`
the ranges `PieceLookup(i)` lie inside of their files, and for all file contents of these lengths the concatenation of
the ranges is exactly piece `i` of the concatenated contents. -/
theorem C23_piece_map (name : Bytes) (pl : Nat) (hpl : 0 < pl) (hashes : Bytes) (files : List EntryBase)
    (hf : ∀ f ∈ files, 0 ≤ f.length) (ti : TorInfo) (h : NewTorInfo name pl hashes files = .ok ti) (i : Nat)
    (hi : i < ti.numPieces) :
    ∃ locs, ti.PieceLookup i = .ok locs ∧
      (∀ l ∈ locs, ∃ f, files[l.fidx]? = some f ∧ 0 ≤ l.loc.seekAmnt ∧ 0 ≤ l.loc.readAmnt ∧
        l.loc.seekAmnt + l.loc.readAmnt ≤ f.length) ∧
      ∀ contents : List Bytes, contents.map List.length = lens files →
        (locs.map fun l => range (contents.getD l.fidx []) l.loc.seekAmnt.toNat l.loc.readAmnt.toNat).flatten =
          pieceOf contents.flatten pl i := by
  obtain ⟨h20, hn⟩ := (C24_accept_iff_partial name pl hpl hashes files hf).mp ⟨ti, h⟩
  rw [needed_le_iff _ _ _ hpl] at hn
  obtain ⟨pm, h1, h2, h3, h4⟩ := newTorInfo_ok name pl hpl hashes files hf (Nat.mod_eq_zero_of_dvd h20) hn
  rw [h4] at h
  cases h
  simp only at hi
  have hpm : pm[i]? = some pm[i] := List.getElem?_eq_getElem (by omega)
  have hc := h3 i _ hpm
  refine ⟨pm[i], ?_, ?_, ?_⟩
  · unfold TorInfo.PieceLookup
    simp only [Int.toNat_natCast]
    rw [if_neg (by omega), if_neg (by omega), hpm]
  · clear hpm
    generalize pm[i] = locs at hc
    generalize i * pl = a at hc
    generalize covered pl (total (lens files)) i = b at hc
    induction hc with
    | nil => simp
    | cons a b k s r rest e1 e0 e2 _ ih =>
      intro l hl
      rcases List.mem_cons.mp hl with rfl | hl
      · have hk : k < files.length := by simpa [lens] using e0
        have hk' : files[k]? = some files[k] := List.getElem?_eq_getElem hk
        have hs := startPos_succ _ k _ (lens_get files k _ hk')
        have := hf _ (List.mem_of_getElem? hk')
        exact ⟨_, hk', by simp only; omega, by simp only; omega, by simp only; omega⟩
      · exact ih l hl
  · intro contents hlen
    rw [← hlen] at hc
    have := consec_fetch hc
    unfold fetch at this
    rw [this]
    unfold range pieceOf
    have htot : total (contents.map List.length) = contents.flatten.length := by
      unfold total; rw [List.length_flatten]
    rw [htot]
    unfold covered
    have hmul : (i + 1) * pl = i * pl + pl := by rw [Nat.add_mul]; omega
    rw [hmul]
    rcases Nat.le_total contents.flatten.length (i * pl) with hle | hle
    · rw [List.drop_eq_nil_of_le hle]; simp
    · rcases Nat.le_total (contents.flatten.length) (i * pl + pl) with h' | h'
      · rw [List.take_of_length_le (i := pl) (by rw [List.length_drop]; omega)]
        apply List.take_of_length_le
        rw [List.length_drop]; omega
      · congr 1; omega

example : (∃ ti, NewTorInfo (ascii "x") (4 : Nat) (List.replicate 80 0) exFiles = .ok ti ∧ ti.numPieces = 4 ∧
    ti.PieceLookup 1 = .ok [⟨0, ⟨4, 1⟩⟩, ⟨1, ⟨0, 0⟩⟩, ⟨2, ⟨0, 3⟩⟩]) ∧
    ([[1, 2, 3, 4, 5], [], [6, 7, 8, 9, 10, 11, 12, 13]] : List Bytes).map List.length = lens exFiles :=
  ⟨⟨_, rfl, by decide +kernel⟩, by decide⟩

/-- **C23**, out-of-range indices: `PieceLookup` returns an error -/
theorem C23_out_of_range (ti : TorInfo) (i : Int) (hi : i < 0 ∨ (ti.numPieces : Int) ≤ i) :
    ti.PieceLookup i = .err .other := by
  unfold TorInfo.PieceLookup
  rcases hi with h | h
  · rw [if_pos h]
  · rw [if_neg (by omega), if_pos h]

example : (-1 : Int) < 0 ∨ ((4 : Nat) : Int) ≤ -1 := by decide

/-- **C23**, order: the ranges of a piece belong to different files and come in the order of the file list, whatever the metadata. -/
theorem C23_in_order (name : Bytes) (pl : Int) (hashes : Bytes) (files : List EntryBase) (ti : TorInfo)
    (h : NewTorInfo name pl hashes files = .ok ti) (i : Int) (locs : List PieceLocation) (hl : ti.PieceLookup i = .ok locs) :
    (locs.map PieceLocation.fidx).Pairwise (· < ·) :=
  newTorInfo_ord name pl hashes files ti h i locs hl

/-- piece 1 of two files of 5 and 3 bytes with piece length 4 has a range in both -/
example : ∃ ti, NewTorInfo (ascii "t") 4 (List.replicate 40 0) [MakeFileEntry (ascii "a") 5, MakeFileEntry (ascii "b") 3] = .ok ti ∧
    ti.PieceLookup 1 = .ok [⟨0, 4, 1⟩, ⟨1, 0, 3⟩] := ⟨_, rfl, rfl⟩

/-- **C25**.  For consistent metadata (exactly the needed number of hashes) the last piece length is between 1 and the
piece length, and the full pieces before it plus the last piece add up to the total length. -/
theorem C25_last_piece (name : Bytes) (pl : Nat) (hpl : 0 < pl) (hashes : Bytes) (files : List EntryBase)
    (hf : ∀ f ∈ files, 0 ≤ f.length) (h20 : 20 ∣ hashes.length)
    (hn : needed (total (lens files)) pl = hashes.length / 20) :
    ∃ ti, NewTorInfo name pl hashes files = .ok ti ∧ 1 ≤ ti.lastPieceLen ∧ ti.lastPieceLen ≤ ti.pieceLen ∧
      ((ti.numPieces : Int) - 1) * ti.pieceLen + ti.lastPieceLen = ti.length ∧
      ti.length = (total (lens files) : Nat) := by
  obtain ⟨h1, h2⟩ := (needed_eq_iff _ _ _ hpl).mp hn
  obtain ⟨pm, -, -, -, h⟩ := newTorInfo_ok name pl hpl hashes files hf (Nat.mod_eq_zero_of_dvd h20) h1
  refine ⟨_, h, ?_, ?_, ?_, rfl⟩
  · simp only
    have : ((hashes.length / 20 : Nat) : Int) * (pl : Int) = ((hashes.length / 20 * pl : Nat) : Int) := by
      rw [Int.natCast_mul]
    rw [this]; omega
  · simp only
    have : ((hashes.length / 20 : Nat) : Int) * (pl : Int) = ((hashes.length / 20 * pl : Nat) : Int) := by
      rw [Int.natCast_mul]
    rw [this]; omega
  · simp only
    rw [Int.sub_mul]; omega

example : needed (total (lens exFiles)) 4 = (List.replicate 80 (0 : UInt8)).length / 20 ∧
    needed (total (lens ([] : List EntryBase))) 4 = ([] : Bytes).length / 20 := by decide

/-- **C25**, number of pieces: CalcNumPieces gives the number of pieces that the bytes need, and panics for piece length 0. -/
theorem C25_count (pl : Nat) (files : List EntryBase) (hf : ∀ f ∈ files, 0 ≤ f.length) :
    (0 < pl → CalcNumPieces files pl = .ok (needed (total (lens files)) pl : Nat)) ∧ (pl = 0 → CalcNumPieces files pl = .panic) := by
  unfold CalcNumPieces
  constructor
  · intro hpl
    rw [if_neg (by omega), sum_lens files hf]
    generalize total (lens files) = n
    have t1 : (n : Int).tdiv pl = ((n / pl : Nat) : Int) := rfl
    have t2 : (n : Int).tmod pl = ((n % pl : Nat) : Int) := rfl
    simp only [t1, t2]
    have hd := Nat.div_add_mod n pl
    have hm := Nat.mod_lt n hpl
    have hq : needed n pl = if 0 < n % pl then n / pl + 1 else n / pl := by
      rw [needed_eq_iff _ _ _ hpl]
      split
      · rw [Nat.add_mul, Nat.mul_comm (n / pl)]; omega
      · rw [Nat.mul_comm (n / pl)]; omega
    rw [hq]
    by_cases hc : 0 < n % pl
    · rw [if_pos (by omega), if_pos hc]; rfl
    · rw [if_neg (by omega), if_neg hc]; simp
  · intro h
    rw [if_pos (by omega)]

example : CalcNumPieces exFiles 4 = .ok 4 ∧ CalcNumPieces [MakeFileEntry (ascii "a") 5, MakeFileEntry (ascii "b") 3] 4 = .ok 2 := by decide +kernel

/-- **C25**, hash of a piece: for every valid piece index `PieceHash` returns the 20 bytes at `20 * i`, for every
other index it panics. -/
theorem C25_piece_hash (name : Bytes) (pl : Int) (hashes : Bytes) (files : List EntryBase) (ti : TorInfo)
    (h : NewTorInfo name pl hashes files = .ok ti) (i : Int) :
    (∀ k : Nat, i = k → k < ti.numPieces → ti.PieceHash i = .ok (range hashes (20 * k) 20) ∧
      (range hashes (20 * k) 20).length = 20) ∧
    ((i < 0 ∨ (ti.numPieces : Int) ≤ i) → ti.PieceHash i = .panic) := by
  obtain ⟨-, -, hh, hn, -⟩ := C24_fields _ _ _ _ _ h
  constructor
  · rintro k rfl hk
    unfold TorInfo.PieceHash range
    rw [if_neg (by rw [hh]; omega), hh]
    rw [show ((k : Int) * 20).toNat = 20 * k by omega]
    refine ⟨rfl, ?_⟩
    rw [List.length_take, List.length_drop]; omega
  · intro hc
    unfold TorInfo.PieceHash
    rw [if_pos (by rw [hh]; omega)]

example : ∃ ti, NewTorInfo (ascii "x") 4 (List.replicate 20 1 ++ List.replicate 60 2) exFiles = .ok ti ∧
    ti.PieceHash 1 = .ok (List.replicate 20 2) ∧ ti.PieceHash 4 = .panic := ⟨_, rfl, by decide +kernel⟩

end Verif.Files
