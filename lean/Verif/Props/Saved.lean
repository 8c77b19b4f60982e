import Verif.Lemmas.Saved
import Verif.Lemmas.Path
import Verif.Props.Create
import Verif.Props.Bencode
/-
C70: metadata survives saving and loading.
-/
set_option autoImplicit false

namespace Verif.Torrent
open Verif.Files Verif.Bencode Verif.Bencode.Spec Verif.Path Verif.Info Verif.Layout Verif.FileIO

/-- the contents of a torrent file: the announce URL and the info dictionary of `Bencode` (info.go:257-281) -/
def metainfo (announce : Bytes) (ti : TorInfo) : Value := .dict [(ascii "announce", .str announce), (ascii "info", .dict (benInfo ti))]

theorem benInfo_isMap (ti : TorInfo) : IsMap (.dict (benInfo ti)) := by
  refine .dict _ (benInfo_nodup ti) ?_
  intro e he
  unfold benInfo at he
  have hf : IsMap (.list (ti.flist.map fun e => Value.dict (benDict e.base))) := by
    refine .list _ ?_
    intro v hv
    obtain ⟨x, -, rfl⟩ := List.mem_map.mp hv
    refine .dict _ (by simp only [benDict, List.map_cons, List.map_nil]; decide) ?_
    intro e he
    simp only [benDict, List.mem_cons, List.not_mem_nil, or_false] at he
    rcases he with rfl | rfl
    · exact .int64 _
    · refine .list _ ?_
      intro v hv
      obtain ⟨x, -, rfl⟩ := List.mem_map.mp hv
      exact .str _
  cases hs : ti.isSingle <;> rw [hs] at he <;>
    simp only [List.mem_cons, List.not_mem_nil, or_false, if_true, if_false, Bool.false_eq_true] at he <;>
    rcases he with rfl | rfl | rfl | rfl | rfl <;> first | exact .str _ | exact .int64 _ | exact hf

theorem metainfo_nodup (announce : Bytes) (ti : TorInfo) :
    ([(ascii "announce", Value.str announce), (ascii "info", .dict (benInfo ti))].map Prod.fst).Nodup := by
  simp only [List.map_cons, List.map_nil]; decide

theorem metainfo_isMap (announce : Bytes) (ti : TorInfo) : IsMap (metainfo announce ti) := by
  refine .dict _ (metainfo_nodup announce ti) ?_
  intro e he
  simp only [List.mem_cons, List.not_mem_nil, or_false] at he
  rcases he with rfl | rfl
  · exact .str _
  · exact benInfo_isMap ti

theorem benInfo_ints {P : Int → Prop} {ti : TorInfo} (h0 : P 0) (h1 : P ti.pieceLen) (h2 : P ti.length)
    (h3 : ∀ e ∈ ti.flist, P e.base.length) : AllInts P (.dict (benInfo ti)) := by
  refine .dict _ ?_
  intro e he
  unfold benInfo at he
  have hf : AllInts P (.list (ti.flist.map fun e => Value.dict (benDict e.base))) := by
    refine .list _ ?_
    intro v hv
    obtain ⟨x, hx, rfl⟩ := List.mem_map.mp hv
    refine .dict _ ?_
    intro e he
    simp only [benDict, List.mem_cons, List.not_mem_nil, or_false] at he
    rcases he with rfl | rfl
    · exact .int64 _ (h3 _ hx)
    · refine .list _ ?_
      intro v hv
      obtain ⟨x, -, rfl⟩ := List.mem_map.mp hv
      exact .str _
  cases hs : ti.isSingle <;> rw [hs] at he <;>
    simp only [List.mem_cons, List.not_mem_nil, or_false, if_true, if_false, Bool.false_eq_true] at he <;>
    rcases he with rfl | rfl | rfl | rfl | rfl <;>
      first | exact .str _ | exact .int64 _ h0 | exact .int64 _ h1 | exact .int64 _ h2 | exact hf

theorem encodable_dict_iff {P : Int → Prop} {es : Dict} (hnd : (es.map Prod.fst).Nodup) :
    Encodable P (.dict es) ↔ ∀ e ∈ es, e.1 ≠ [] ∧ Encodable P e.2 := by
  constructor
  · intro h
    cases h with
    | dict _ _ h2 h3 => exact fun e he => ⟨h2 e he, h3 e he⟩
  · exact fun h => .dict _ hnd (fun e he => (h e he).1) fun e he => (h e he).2

theorem encodable_str_iff {P : Int → Prop} {s : Bytes} : Encodable P (.str s) ↔ s ≠ [] :=
  ⟨fun h => by cases h; assumption, fun h => .str _ h⟩

theorem encodable_list_iff {P : Int → Prop} {vs : List Value} : Encodable P (.list vs) ↔ ∀ v ∈ vs, Encodable P v :=
  ⟨fun h => by cases h; assumption, fun h => .list _ h⟩

theorem encodable_int : ∀ i : Int, Encodable (fun _ => True) (.int64 i) := fun i => .int64 i trivial

theorem encodable_file (e : EntryBase) :
    Encodable (fun _ => True) (.dict (benDict e)) ↔ ∀ c ∈ Dirs.components e.torPath, c ≠ [] := by
  rw [components_eq]
  rw [encodable_dict_iff (by simp only [benDict, List.map_cons, List.map_nil]; decide)]
  have hk : ascii "length" ≠ [] ∧ ascii "path" ≠ [] := by decide
  simp only [benDict, List.mem_cons, List.not_mem_nil, or_false, forall_eq_or_imp, forall_eq, encodable_list_iff, List.forall_mem_map,
    encodable_str_iff, ne_eq, hk.1, hk.2, not_false_eq_true, true_and, encodable_int]

/-- **C70**, when the metadata can be written at all: nothing in it may be the empty string. -/
theorem C70_saves_iff (name : Bytes) (pl : Int) (hashes : Bytes) (files : List EntryBase) (ti : TorInfo)
    (h : NewTorInfo name pl hashes files = .ok ti) (announce : Bytes) :
    (Encode (metainfo announce ti)).2 = none ↔
      announce ≠ [] ∧ name ≠ [] ∧ hashes ≠ [] ∧ (files.length = 1 ∨ ∀ f ∈ files, ∀ c ∈ Dirs.components f.torPath, c ≠ []) := by
  obtain ⟨g1, g2, g3, g4, g5, g6⟩ := newTorInfo_fields h
  rw [C01_encode_succeeds_iff _ (metainfo_isMap announce ti), metainfo, encodable_dict_iff (metainfo_nodup announce ti)]
  have hk : ascii "announce" ≠ [] ∧ ascii "info" ≠ [] ∧ ascii "name" ≠ [] ∧ ascii "piece length" ≠ [] ∧ ascii "pieces" ≠ [] ∧
      ascii "private" ≠ [] ∧ ascii "length" ≠ [] ∧ ascii "files" ≠ [] := by decide
  simp only [List.mem_cons, List.not_mem_nil, or_false, forall_eq_or_imp, forall_eq, encodable_str_iff, ne_eq, hk.1, hk.2.1, not_false_eq_true,
    true_and]
  rw [encodable_dict_iff (benInfo_nodup ti)]
  unfold benInfo
  by_cases hs : files.length = 1
  · rw [g4.mpr hs]
    simp only [List.mem_cons, List.not_mem_nil, or_false, forall_eq_or_imp, forall_eq, encodable_str_iff, ne_eq, hk.2.2, not_false_eq_true,
      true_and, if_true, encodable_int, g1, g3, hs, true_or, and_true]
  · have hs' : ti.isSingle = false := by
      cases hh : ti.isSingle with
      | false => rfl
      | true => exact absurd (g4.mp hh) hs
    have hfl : (ti.flist.map fun e => Value.dict (benDict e.base)) = files.map fun e => Value.dict (benDict e) := by
      rw [← g6, List.map_map]; rfl
    rw [hs', hfl]
    simp only [List.mem_cons, List.not_mem_nil, or_false, forall_eq_or_imp, forall_eq, encodable_str_iff, ne_eq, hk.2.2, not_false_eq_true,
      true_and, if_false, encodable_int, g1, g3, hs, false_or, encodable_list_iff, List.forall_mem_map, encodable_file, Bool.false_eq_true]

theorem placed_lens {wd name : Bytes} {files : List EntryBase} (hf : ∀ f ∈ files, 0 ≤ f.length) :
    (∀ f ∈ placed wd name files, 0 ≤ f.length) ∧ total (lens (placed wd name files)) = total (lens files) ∧
    (placed wd name files).length = files.length ∧ ((placed wd name files).map EntryBase.length).sum = (files.map EntryBase.length).sum := by
  unfold placed
  split
  · rename_i h1
    obtain ⟨f, rfl⟩ := List.length_eq_one_iff.mp h1
    have := hf f (by simp)
    simp [lens, total, this]
  · refine ⟨?_, ?_, by simp, by rw [List.map_map]; rfl⟩
    · intro f hm
      obtain ⟨g, hg, rfl⟩ := List.mem_map.mp hm
      exact hf g hg
    · unfold lens
      rw [List.map_map]
      rfl

/-- **C70**: metadata that the library accepts, written by the library's own encoder and read again (in any working directory) comes back: the
same announce URL, the info-hash that `NewTorrent` computed for the original, name, piece length, hashes and lengths, and the
same files, at their places below the working directory. -/
theorem C70_roundtrip (H : Bytes → Bytes) (name : Bytes) (pl : Nat) (hpl : 0 < pl) (hashes : Bytes) (files : List EntryBase)
    (hf : ∀ f ∈ files, 0 ≤ f.length) (ti : TorInfo) (h : NewTorInfo name pl hashes files = .ok ti)
    (hp63 : pl < 2 ^ 63) (hl63 : (files.map EntryBase.length).sum < 2 ^ 63)
    (announce file sp wd : Bytes) (he : Encode (metainfo announce ti) = (file, none)) (hlen : file.length < 2 ^ 63) :
    ∃ t ti', NewTorrent H ti announce = .ok t ∧ t.info = ti ∧ t.announce = announce ∧
      FromTorrentFile H (some file) sp wd = .ok ⟨t.infohash, announce, ti'⟩ ∧
      ti'.name = ti.name ∧ ti'.pieceLen = ti.pieceLen ∧ ti'.hashes = ti.hashes ∧ ti'.numPieces = ti.numPieces ∧ ti'.length = ti.length ∧
      ti'.isSingle = ti.isSingle ∧ ti'.flist.map Entry.base = placed wd name files ∧ Accepted pl hashes (placed wd name files) ti' := by
  obtain ⟨g1, g2, g3, g4, g5, g6⟩ := newTorInfo_fields h
  have hmap := metainfo_isMap announce ti
  have henc := encodable_of_encode hmap (by rw [Encode] at he; rw [he])
  have hinfo : Encodable (fun _ => True) (.dict (benInfo ti)) :=
    ((encodable_dict_iff (metainfo_nodup announce ti)).mp henc (ascii "info", .dict (benInfo ti)) (by simp)).2
  obtain ⟨ib, hib, hic⟩ := encode_canon hinfo
  obtain ⟨b, hb, hc⟩ := encode_canon henc
  have hbf : b = file := by rw [Encode, hb] at he; exact (Prod.mk.inj he).1
  subst hbf
  have hsum : ∀ f ∈ files, f.length ≤ (files.map EntryBase.length).sum := by
    clear h g4 g5 g6 hl63
    intro f hm
    induction files with
    | nil => cases hm
    | cons x xs ih =>
      have hx := hf x (by simp)
      have hxs : 0 ≤ (xs.map EntryBase.length).sum := by
        have : ∀ y ∈ xs, 0 ≤ y.length := fun y hy => hf y (by simp [hy])
        clear ih hm hf
        induction xs with
        | nil => simp
        | cons y ys ih =>
          have := ih fun z hz => this z (by simp [hz])
          have := this
          have hy : 0 ≤ y.length := by apply_assumption; simp
          simp only [List.map_cons, List.sum_cons]; omega
      rw [List.map_cons, List.sum_cons]
      rcases List.mem_cons.mp hm with rfl | hm
      · omega
      · have := ih (fun y hy => hf y (by simp [hy])) hm
        omega
  have hsum0 : 0 ≤ (files.map EntryBase.length).sum := by
    cases files with
    | nil => simp
    | cons f fs => have := hsum f (by simp); have := hf f (by simp); omega
  have hints : AllInts DecInt (metainfo announce ti) := by
    refine .dict _ ?_
    intro e hm
    simp only [List.mem_cons, List.not_mem_nil, or_false] at hm
    rcases hm with rfl | rfl
    · exact .str _
    · refine benInfo_ints (by simp [DecInt]) (by rw [g2]; unfold DecInt; omega) (by rw [g5]; unfold DecInt; omega) ?_
      intro e hm
      have : e.base ∈ files := by rw [← g6]; exact List.mem_map_of_mem hm
      have h1 := hsum _ this
      have h2 := hf _ this
      unfold DecInt
      omega
  have hdec : Decode b sp = .ok (norm (metainfo announce ti)) := by
    have := (decode_canon hc (canon_lenOk hc hlen) [] sp).1 (allInts_norm' hints)
    rwa [List.append_nil] at this
  obtain ⟨p1, p2, p3, p4⟩ := placed_lens (wd := wd) (name := name) hf
  obtain ⟨ti', hti'⟩ := (C24_accept_iff_partial name pl hpl hashes (placed wd name files) p1).mpr (by
    rw [p2]; exact (C24_accept_iff_partial name pl hpl hashes files hf).mp ⟨ti, h⟩)
  obtain ⟨k1, k2, k3, k4, k5, k6⟩ := newTorInfo_fields hti'
  have hn := (C24_fields _ _ _ _ _ h).2.2.2.1
  have hn' := (C24_fields _ _ _ _ _ hti').2.2.2.1
  have hld : FromDict (normDict (benInfo ti)) wd = .ok ti' := by rw [fromDict_loaded h, hti']
  have hsame : Encode (.dict (normDict (benInfo ti))) = (ib, none) := by
    have : norm (.dict (benInfo ti)) = .dict (normDict (benInfo ti)) := by rw [norm]; rfl
    rw [← this]
    exact encode_of_canon hic
  refine ⟨⟨H ib, announce, ti⟩, ti', ?_, rfl, rfl, ?_, by rw [k1, g1], by rw [k2, g2], by rw [k3, g3], by omega, by rw [k5, g5, p4], ?_, k6,
    ⟨hpl, p1, name, hti'⟩⟩
  · unfold NewTorrent
    rw [Encode, hib]
  · have hd : norm (metainfo announce ti) = .dict (normDict [(ascii "announce", .str announce), (ascii "info", .dict (benInfo ti))]) := by
      rw [metainfo, norm]; rfl
    rw [hd] at hdec
    rw [fromTorrentFile_eq hdec (getString_of_mem (metainfo_nodup announce ti) (s := announce) (List.mem_cons_self ..))
      (getDict_of_mem (metainfo_nodup announce ti) (d := benInfo ti) (List.mem_cons_of_mem _ (List.mem_cons_self ..))) hld H, hsame]
  · rw [Bool.eq_iff_iff, k4, g4, p3]

/-! ### created torrents -/

open Verif.Create Verif.FS

theorem placed_created (wd name : Bytes) (paths cs : List Bytes) (hlen : paths.length = cs.length) :
    placed wd name (List.zipWith (entryFor (filesDir paths wd name)) paths cs) = List.zipWith (entryFor (filesDir paths wd name)) paths cs ↔
      paths.length ≠ 1 ∨ paths = [name] := by
  unfold placed
  rw [List.length_zipWith, ← hlen, Nat.min_self]
  by_cases h1 : paths.length = 1
  · obtain ⟨p, rfl⟩ := List.length_eq_one_iff.mp h1
    obtain ⟨c, rfl⟩ := List.length_eq_one_iff.mp (hlen.symm.trans h1)
    simp only [h1, if_true, List.zipWith_cons_cons, List.zipWith_nil_right, List.map_cons, List.map_nil, List.sum_cons, List.sum_nil, entryFor,
      MakeFileEntry, EntryBase.SetLocalPath, filesDir, List.cons.injEq, and_true, ne_eq, not_true_eq_false, false_or]
    constructor
    · intro h
      exact (congrArg EntryBase.torPath h).symm
    · rintro rfl
      simp
  · simp only [h1, if_false, ne_eq, not_false_eq_true, true_or, iff_true]
    have hb : paths ≠ [] → filesDir paths wd name = Join wd name := by
      intro hne
      unfold filesDir
      rw [if_neg]
      have := List.length_pos_iff.mpr hne
      omega
    apply List.ext_getElem?
    intro k
    rw [List.getElem?_map, List.getElem?_zipWith]
    cases hk : paths[k]? with
    | none => rfl
    | some p =>
      cases cs[k]? with
      | none => rfl
      | some c =>
        simp only [Option.map_some, entryFor, MakeFileEntry, EntryBase.SetLocalPath]
        rw [hb (by rintro rfl; cases hk)]

/-- **C70** for torrents created from files: saved and loaded again with the same working directory the metadata is the same, including the
places of the files – unless it is a single file whose path is not the name of the torrent: that is looked for under another path. -/
theorem C70_created_iff_partial (H : Bytes → Bytes) (reads : Nat → Option Nat) (fs : State) (fuel : Nat) (paths : List Bytes)
    (wd name : Bytes) (pl : Nat) (hpl : 0 < pl) (hmax : pl ≤ 5 * 1024 * 1024) (ti : TorInfo)
    (hti : CreateTorInfo H reads fs fuel paths wd name pl = .ok ti) (hl63 : ti.length < 2 ^ 63)
    (announce file sp : Bytes) (he : Encode (metainfo announce ti) = (file, none)) (hlen : file.length < 2 ^ 63) :
    ∃ t ti', NewTorrent H ti announce = .ok t ∧ FromTorrentFile H (some file) sp wd = .ok ⟨t.infohash, announce, ti'⟩ ∧
      (ti' = ti ↔ paths.length ≠ 1 ∨ paths = [name]) := by
  obtain ⟨cs, hc, hm⟩ := (created_made H reads fs fuel paths wd name pl hpl hmax).1 ti hti
  have hpc : paths.length = cs.length := by have := congrArg List.length hc; simpa using this
  obtain ⟨g1, g2, g3, g4, g5, g6⟩ := newTorInfo_fields hm
  obtain ⟨t, ti', t1, -, -, t2, tn, -, -, -, -, -, t3, t4⟩ := C70_roundtrip H name pl hpl _ _ (entries_nonneg _ _ _) ti hm (by omega)
    (by rw [← g5]; exact hl63) announce file sp wd he hlen
  refine ⟨t, ti', t1, t2, ?_⟩
  rw [← placed_created wd name paths cs hpc]
  constructor
  · rintro rfl
    rw [← t3, g6]
  · intro hp
    obtain ⟨name', hn⟩ := t4.made
    have h1 := (newTorInfo_fields hn).1
    rw [tn, g1] at h1
    subst h1
    rw [hp, hm] at hn
    cases hn
    rfl

/-- the metadata of the three files of `exFs`, as it is saved -/
def exSaved : Bytes := ascii "d8:announce8:http://t4:infod5:filesld6:lengthi5e4:pathl1:aeed6:lengthi0e4:pathl1:beed6:lengthi3e4:pathl1:d1:ceee4:name1:t12:piece lengthi8e6:pieces20:" ++
  exH [1, 2, 3, 4, 5, 6, 7, 8] ++ ascii "7:privatei0eee"

set_option maxRecDepth 10000 in
theorem ex_saved (reads : Nat → Option Nat) (hr : ∀ t, (reads t).isSome) :
    ∃ ti, CreateTorInfo exH reads exFs 6 [ascii "a", ascii "b", ascii "d/c"] (ascii "/w") (ascii "t") 8 = .ok ti ∧ ti.length = 8 ∧
      Encode (metainfo (ascii "http://t") ti) = (exSaved, none) := by
  obtain ⟨ti, h1, h2⟩ := C30_succeeds_partial exH (by intro x; simp [exH]) reads exFs 6
    [ascii "a", ascii "b", ascii "d/c"] (ascii "/w") (ascii "t") 8 (by decide) (by decide)
    [[1, 2, 3, 4, 5], [], [6, 7, 8]] (by unfold Contents; decide +kernel) hr (by decide)
  obtain ⟨cs, hc, hm⟩ := (created_made exH reads exFs 6 [ascii "a", ascii "b", ascii "d/c"] (ascii "/w") (ascii "t") 8 (by decide) (by decide)).1 ti h1
  obtain ⟨g1, g2, g3, g4, g5, g6⟩ := newTorInfo_fields hm
  have hcs : cs = [[1, 2, 3, 4, 5], [], [6, 7, 8]] := by
    have : [[1, 2, 3, 4, 5], [], [6, 7, 8]].map some = cs.map some := by
      rw [← hc]; decide +kernel
    exact ((List.map_inj_right (fun _ _ h => Option.some.inj h)).mp this).symm
  subst hcs
  refine ⟨ti, h1, by rw [g5]; decide, ?_⟩
  have hs : ti.isSingle = false := by
    cases hh : ti.isSingle with
    | false => rfl
    | true => exact absurd (g4.mp hh) (by decide)
  have hfl : (ti.flist.map fun e => Value.dict (benDict e.base)) =
      (List.zipWith (entryFor (filesDir [ascii "a", ascii "b", ascii "d/c"] (ascii "/w") (ascii "t"))) [ascii "a", ascii "b", ascii "d/c"]
        [[1, 2, 3, 4, 5], [], [6, 7, 8]]).map (fun b => Value.dict (benDict b)) := by
    rw [← g6, List.map_map]; rfl
  have hph : pieceHashes exH [[1, 2, 3, 4, 5], [], [6, 7, 8]].flatten 8 = exH [1, 2, 3, 4, 5, 6, 7, 8] := by decide +kernel
  unfold metainfo benInfo
  rw [hs, hfl, g1, g2, g3, hph]
  simp [exSaved, exH, Encode, encode, encodeEntries, encodeList, encodeSorted, List.mergeSort, List.MergeSort.Internal.splitInTwo,
    bytesLe, ascii, wrapEnc, seqEnc, encodeString, encodeInt, natDec_lt, intDec, natDec_12, natDec_20, entryFor, benDict, splitSlash,
    MakeFileEntry, EntryBase.SetLocalPath]

example : ∃ t, FromTorrentFile exH (some exSaved) [] (ascii "/w") = .ok t ∧ t.announce = ascii "http://t" ∧
    CreateTorInfo exH (fun _ => some 2) exFs 6 [ascii "a", ascii "b", ascii "d/c"] (ascii "/w") (ascii "t") 8 = .ok t.info := by
  obtain ⟨ti, h1, h2, h3⟩ := ex_saved (fun _ => some 2) (fun _ => rfl)
  obtain ⟨t, ti', t1, t2, t3⟩ := C70_created_iff_partial exH _ exFs 6 [ascii "a", ascii "b", ascii "d/c"] (ascii "/w") (ascii "t") 8 (by decide) (by decide)
    ti h1 (by rw [h2]; decide) (ascii "http://t") exSaved [] h3 (by decide +kernel)
  exact ⟨_, t2, rfl, by rw [t3.mpr (.inl (by decide)), h1]⟩

/-- **C70** refuted: a torrent of the single file /w/a called `b` is looked for at /w/b when it is loaded. -/
theorem C70_refuted_renamed : ∃ (ti : TorInfo) (file : Bytes) (t : Torrent), CreateTorInfo exH (fun _ => some 9) (fun p => if p = ascii "/w/a" then some [7] else none) 9 [ascii "a"] (ascii "/w") (ascii "b") 1 = .ok ti ∧
    Encode (metainfo (ascii "x") ti) = (file, none) ∧ FromTorrentFile exH (some file) [] (ascii "/w") = .ok t ∧
    ti.flist.map (fun e => e.base.localPath) = [ascii "/w/a"] ∧ t.info.flist.map (fun e => e.base.localPath) = [ascii "/w/b"] := by
  obtain ⟨ti, h1⟩ := Res.isOk_iff (r := CreateTorInfo exH (fun _ => some 9) (fun p => if p = ascii "/w/a" then some [7] else none) 9 [ascii "a"] (ascii "/w") (ascii "b") 1)
    (by decide +kernel)
  obtain ⟨cs, hc, hm⟩ := (created_made exH _ _ 9 [ascii "a"] (ascii "/w") (ascii "b") 1 (by decide) (by decide)).1 ti h1
  obtain ⟨g1, g2, g3, g4, g5, g6⟩ := newTorInfo_fields hm
  have hcs : cs = [[7]] := by
    have : [[7]].map some = cs.map some := by
      rw [← hc]; decide +kernel
    exact ((List.map_inj_right (fun _ _ h => Option.some.inj h)).mp this).symm
  subst hcs
  have hph : pieceHashes exH [[7]].flatten 1 = exH [7] := by decide +kernel
  have he : Encode (metainfo (ascii "x") ti) = (ascii "d8:announce1:x4:infod6:lengthi1e4:name1:b12:piece lengthi1e6:pieces20:" ++ exH [7] ++ ascii "7:privatei0eee", none) := by
    unfold metainfo benInfo
    rw [g4.mpr rfl, g1, g2, g3, g5, hph]
    simp [exH, Encode, encode, encodeEntries, encodeSorted, List.mergeSort, List.MergeSort.Internal.splitInTwo,
      bytesLe, ascii, wrapEnc, seqEnc, encodeString, encodeInt, natDec_lt, intDec, natDec_12, natDec_20, entryFor,
      MakeFileEntry, EntryBase.SetLocalPath]
  obtain ⟨t, ti', t1, -, -, t2, -, -, -, -, -, -, t3, -⟩ := C70_roundtrip exH (ascii "b") 1 (by decide) _ _ (entries_nonneg _ _ _) ti hm (by decide)
    (by decide +kernel) (ascii "x") _ [] (ascii "/w") he (by decide +kernel)
  refine ⟨ti, _, _, h1, he, t2, ?_, ?_⟩
  · rw [show (fun e : Entry => e.base.localPath) = EntryBase.localPath ∘ Entry.base from rfl, ← List.map_map, g6]
    decide +kernel
  · rw [show (fun e : Entry => e.base.localPath) = EntryBase.localPath ∘ Entry.base from rfl, ← List.map_map, t3]
    decide +kernel

end Verif.Torrent
