import Verif.Spec.Info
import Verif.Props.Torrent
/-
Property C33: /repo/src/torrent/info/info.go FromDict and Bencode are inverse to each other.
-/
set_option autoImplicit false

namespace Verif.Torrent
open Verif.Files Verif.Bencode Verif.Bencode.Spec Verif.Path Verif.Info

theorem newTorInfo_fields {name : Bytes} {pl : Int} {hashes : Bytes} {files : List EntryBase} {ti : TorInfo}
    (h : NewTorInfo name pl hashes files = .ok ti) :
    ti.name = name ∧ ti.pieceLen = pl ∧ ti.hashes = hashes ∧ (ti.isSingle = true ↔ files.length = 1) ∧
      ti.length = (files.map EntryBase.length).sum ∧ ti.flist.map Entry.base = files := by
  unfold NewTorInfo at h
  split at h
  · cases h
  · obtain ⟨fl, h1, h⟩ := Res.bind_eq_ok.mp h
    obtain ⟨pm, -, h⟩ := Res.bind_eq_ok.mp h
    simp only [Res.ok.injEq] at h
    subst h
    exact ⟨rfl, rfl, rfl, by simp, rfl, Verif.Create.makeFileList_base h1⟩

/-- the common part of `FromDict` -/
theorem fromDict_ok {d : Dict} {wd : Bytes} {ti : TorInfo} (h : FromDict d wd = .ok ti) :
    ∃ name pl pieces fes, d.lookup (ascii "name") = some (.str name) ∧ d.lookup (ascii "piece length") = some (.int64 pl) ∧
      d.lookup (ascii "pieces") = some (.str pieces) ∧ entriesOf d name wd = .ok fes ∧ NewTorInfo name pl pieces fes = .ok ti := by
  unfold FromDict at h
  obtain ⟨a, h1, h⟩ := Res.bind_eq_ok.mp h
  obtain ⟨b, h2, h⟩ := Res.bind_eq_ok.mp h
  obtain ⟨c, h3, h⟩ := Res.bind_eq_ok.mp h
  obtain ⟨e, h4, h⟩ := Res.bind_eq_ok.mp h
  exact ⟨a, b, c, e, getString_lookup h1, getInt_lookup h2, getString_lookup h3, h4, h⟩

theorem same_int64 {i j : Int} (h : Same (.int64 i) (.int64 j)) : i = j := by cases h; rfl
theorem same_str' {s t : Bytes} (h : Same (.str s) (.str t)) : s = t := by cases h; rfl

/-- **C33**, single file: loading an info dictionary in the client's format and converting it back gives the same map, whatever
the order of the entries. -/
theorem C33_single (name pieces wd : Bytes) (pl len : Int) (d : Dict) (hm : IsMap (.dict d))
    (hs : Same (.dict d) (.dict (singleInfo name pieces pl len))) (ti : TorInfo) (h : FromDict d wd = .ok ti) :
    Same (.dict d) (.dict (benInfo ti)) ∧ Encode (.dict (benInfo ti)) = Encode (.dict d) := by
  obtain ⟨n, p, ps, fes, h1, h2, h3, h4, h5⟩ := fromDict_ok h
  obtain ⟨g1, g2, g3, g4, g5, g6⟩ := newTorInfo_fields h5
  have e1 := same_str' (same_lookup hm hs h1 (w := .str name) (by simp [singleInfo]))
  have e2 := same_int64 (same_lookup hm hs h2 (w := .int64 pl) (by simp [singleInfo]))
  have e3 := same_str' (same_lookup hm hs h3 (w := .str pieces) (by simp [singleInfo]))
  unfold entriesOf at h4
  cases hl : Dict.getInt d (ascii "length") with
  | ok l =>
    rw [hl] at h4
    simp only [Res.ok.injEq] at h4
    have e4 := same_int64 (same_lookup hm hs (getInt_lookup hl) (w := .int64 len) (by simp [singleInfo]))
    subst h4
    have hsingle := g4.mpr rfl
    have hb : benInfo ti = singleInfo name pieces pl len := by
      unfold benInfo singleInfo
      rw [g1, g2, g3, g5, hsingle, e1, e2, e3, ← e4]
      simp [MakeFileEntry, EntryBase.SetLocalPath]
    rw [hb]
    refine ⟨hs, (encode_same hs hm ?_).symm⟩
    refine .dict _ ?_ ?_
    · simp only [singleInfo, List.map_cons, List.map_nil]; decide
    · intro e he
      simp only [singleInfo, List.mem_cons, List.not_mem_nil, or_false] at he
      rcases he with rfl | rfl | rfl | rfl | rfl <;> first | exact .str _ | exact .int64 _
  | err e =>
    rw [hl] at h4
    have hf := same_lookup_none hs (k := ascii "files") (by simp only [singleInfo, List.map_cons, List.map_nil]; decide)
    simp only [Dict.getList, Dict.get, hf] at h4
    cases h4
  | panic => rw [hl] at h4; cases h4
  | timeout => rw [hl] at h4; cases h4

theorem benEntry_same {v : Value} (hm : IsMap v) {f : Int × List Bytes} (hs : Same v (fileInfo f)) (hne : f.2 ≠ [])
    {e : EntryBase} (h : benEntry v = .ok e) : e.length = f.1 ∧ e.torPath = joinSlash f.2 := by
  obtain ⟨len, cs⟩ := f
  obtain ⟨c, cs, rfl⟩ := List.exists_cons_of_ne_nil hne
  unfold benEntry at h
  cases v <;> simp only at h
  case dict d =>
    obtain ⟨l, h1, h⟩ := Res.bind_eq_ok.mp h
    obtain ⟨pl, h2, h⟩ := Res.bind_eq_ok.mp h
    obtain ⟨strb, h3, h⟩ := Res.bind_eq_ok.mp h
    have e1 := same_int64 (same_lookup hm hs (getInt_lookup h1) (w := .int64 len) (by simp))
    have e2 := same_lookup hm hs (getList_lookup h2) (w := .list ((c :: cs).map Value.str)) (by simp)
    have e3 : pl = (c :: cs).map Value.str := by
      cases e2 with
      | list _ _ hl hp =>
        apply List.ext_getElem? 
        intro n
        cases hn : pl[n]? with
        | none =>
          rw [List.getElem?_eq_none_iff] at hn
          rw [List.getElem?_eq_none (by omega)]
        | some x =>
          have hlt : n < pl.length := (List.getElem?_eq_some_iff.mp hn).1
          have hlt2 : n < (c :: cs).length := by simpa [hl] using hlt
          have hx := hp n x (.str (c :: cs)[n]) hn (by rw [List.getElem?_map, List.getElem?_eq_getElem hlt2]; rfl)
          rw [List.getElem?_map, List.getElem?_eq_getElem hlt2, same_str (same_symm hx)]
          rfl
    subst e3
    rw [pathLoop_str] at h3
    simp only [List.nil_append, Res.ok.injEq] at h3
    subst h3
    split at h
    · cases h
    · simp only [Res.ok.injEq] at h
      subst h
      exact ⟨e1, joinSlash_eq c cs⟩
  all_goals cases h

theorem fromBenList_same {vs : List Value} (hm : ∀ v ∈ vs, IsMap v) {files : List (Int × List Bytes)}
    (hl : vs.length = files.length)
    (hs : ∀ (n : Nat) (v w : Value), vs[n]? = some v → (files.map fileInfo)[n]? = some w → Same v w)
    (hne : ∀ f ∈ files, f.2 ≠ []) {es : List EntryBase} (h : FromBenList vs = .ok es) :
    es.map (fun e => (e.length, e.torPath)) = files.map fun f => (f.1, joinSlash f.2) := by
  induction vs generalizing files es with
  | nil =>
    have : files = [] := List.length_eq_zero_iff.mp (by simpa using hl.symm)
    subst this
    simp only [FromBenList, Res.ok.injEq] at h
    subst h; rfl
  | cons v vs ih =>
    cases files with
    | nil => simp at hl
    | cons f files =>
      rw [FromBenList] at h
      obtain ⟨e, h1, h⟩ := Res.bind_eq_ok.mp h
      obtain ⟨es', h2, h⟩ := Res.bind_eq_ok.mp h
      simp only [Res.ok.injEq] at h
      subst h
      obtain ⟨e1, e2⟩ := benEntry_same (hm v (by simp)) (hs 0 v (fileInfo f) rfl rfl) (hne f (by simp)) h1
      have := ih (fun v hv => hm v (by simp [hv])) (by simpa using hl)
        (fun n v w hv hw => hs (n + 1) v w (by simpa using hv) (by simpa using hw)) (fun f hf => hne f (by simp [hf])) h2
      rw [List.map_cons, List.map_cons, this, e1, e2]

/-- **C33**, several files: also the paths survive, if no component contains a slash. -/
theorem C33_multi_partial (name pieces wd : Bytes) (pl : Int) (files : List (Int × List Bytes)) (hn : files.length ≠ 1)
    (hp : ∀ f ∈ files, f.2 ≠ [] ∧ ∀ c ∈ f.2, (47 : UInt8) ∉ c) (d : Dict) (hm : IsMap (.dict d))
    (hs : Same (.dict d) (.dict (multiInfo name pieces pl files))) (ti : TorInfo) (h : FromDict d wd = .ok ti) :
    Same (.dict d) (.dict (benInfo ti)) ∧ Encode (.dict (benInfo ti)) = Encode (.dict d) := by
  obtain ⟨n, p, ps, fes, h1, h2, h3, h4, h5⟩ := fromDict_ok h
  obtain ⟨g1, g2, g3, g4, g5, g6⟩ := newTorInfo_fields h5
  have e1 := same_str' (same_lookup hm hs h1 (w := .str name) (by simp [multiInfo]))
  have e2 := same_int64 (same_lookup hm hs h2 (w := .int64 pl) (by simp [multiInfo]))
  have e3 := same_str' (same_lookup hm hs h3 (w := .str pieces) (by simp [multiInfo]))
  unfold entriesOf at h4
  have hlen := same_lookup_none hs (k := ascii "length") (by simp only [multiInfo, List.map_cons, List.map_nil]; decide)
  have hint : Dict.getInt d (ascii "length") = .err .missingKey := by simp only [Dict.getInt, Dict.get, hlen]
  rw [hint] at h4
  simp only at h4
  cases hl : Dict.getList d (ascii "files") with
  | ok vs =>
    rw [hl] at h4
    simp only at h4
    obtain ⟨es, h6, h4⟩ := Res.bind_eq_ok.mp h4
    simp only [Res.ok.injEq] at h4
    have hlk := getList_lookup hl
    have e4 := same_lookup hm hs hlk (w := .list (files.map fileInfo)) (by simp [multiInfo])
    have hvm : ∀ v ∈ vs, IsMap v := by
      cases isMap_lookup hm hlk with
      | list _ h => exact h
    cases e4 with
    | list _ _ hll hpp =>
      have hent := fromBenList_same hvm (by simpa using hll) hpp (fun f hf => (hp f hf).1) h6
      have hflen : fes.length = files.length := by
        rw [← h4, List.length_map]
        have := congrArg List.length hent
        simpa using this
      have hsingle : ti.isSingle = false := by
        rw [Bool.eq_false_iff]
        intro hc
        exact hn (by rw [← hflen]; exact g4.mp hc)
      have hb : benInfo ti = multiInfo name pieces pl files := by
        unfold benInfo multiInfo
        rw [g1, g2, g3, hsingle, e1, e2, e3]
        have hfl : (ti.flist.map fun e => Value.dict (benDict e.base)) = files.map fileInfo := by
          have k1 : (ti.flist.map fun e => Value.dict (benDict e.base)) = (ti.flist.map Entry.base).map fun e => Value.dict (benDict e) := by
            rw [List.map_map]; rfl
          have k2 : (es.map fun e => Value.dict (benDict e)) =
              (es.map fun e => (e.length, e.torPath)).map fun q =>
                Value.dict [(ascii "length", .int64 q.1), (ascii "path", .list ((splitSlash q.2).map Value.str))] := by
            rw [List.map_map]; rfl
          rw [k1, g6, ← h4, List.map_map]
          have k3 : ((fun e => Value.dict (benDict e)) ∘ fun fe : EntryBase => fe.SetLocalPath (Join (Join wd n) fe.torPath)) =
              fun e => Value.dict (benDict e) := rfl
          rw [k3, k2, hent, List.map_map]
          apply List.map_congr_left
          intro f hf
          obtain ⟨len, cs⟩ := f
          obtain ⟨hne, hsl⟩ := hp _ hf
          obtain ⟨c, cs, rfl⟩ := List.exists_cons_of_ne_nil hne
          simp only [Function.comp, fileInfo]
          rw [split_join c cs hsl]
        rw [hfl]
        rfl
      rw [hb]
      refine ⟨hs, (encode_same hs hm ?_).symm⟩
      refine .dict _ ?_ ?_
      · simp only [multiInfo, List.map_cons, List.map_nil]; decide
      · intro e he
        simp only [multiInfo, List.mem_cons, List.not_mem_nil, or_false] at he
        rcases he with rfl | rfl | rfl | rfl | rfl
        · exact .str _
        · exact .int64 _
        · exact .str _
        · exact .int64 _
        · refine .list _ ?_
          intro v hv
          obtain ⟨f, -, rfl⟩ := List.mem_map.mp hv
          refine .dict _ (by simp only [List.map_cons, List.map_nil]; decide) ?_
          intro e he
          simp only [List.mem_cons, List.not_mem_nil, or_false] at he
          rcases he with rfl | rfl
          · exact .int64 _
          · refine .list _ ?_
            intro v hv
            obtain ⟨c, -, rfl⟩ := List.mem_map.mp hv
            exact .str c
  | err e => rw [hl] at h4; cases h4
  | panic => rw [hl] at h4; cases h4
  | timeout => rw [hl] at h4; cases h4

/-- **C33**, consequence: `NewTorrent` on the loaded metadata gives the info-hash of the loaded file whenever it succeeds, and
it succeeds unless the encoder rejects the info dictionary. -/
theorem C33_same_infohash_partial (H : Bytes → Bytes) (data sp wd : Bytes) (t : Torrent) (d : Dict)
    (h : FromTorrentFile H (some data) sp wd = .ok t) (hd : ∃ top, Decode data sp = .ok (.dict top) ∧ top.lookup (ascii "info") = some (.dict d))
    (hs : (∃ name pieces pl len, Same (.dict d) (.dict (singleInfo name pieces pl len))) ∨
      ∃ name pieces pl files, Same (.dict d) (.dict (multiInfo name pieces pl files)) ∧ files.length ≠ 1 ∧
        ∀ f ∈ files, f.2 ≠ [] ∧ ∀ c ∈ f.2, (47 : UInt8) ∉ c) :
    ((Encode (.dict d)).2 = none → NewTorrent H t.info t.announce = .ok t) ∧
    ((Encode (.dict d)).2 ≠ none → ∃ e, NewTorrent H t.info t.announce = .err e) := by
  obtain ⟨top, hd1, hd2⟩ := hd
  obtain ⟨top', infod, h1, h2, h3, h4, h5⟩ := fromTorrentFile_ok h
  have := decode_dict_nospare hd1
  rw [h1] at this
  cases this
  have hm : IsMap (.dict infod) := by
    obtain ⟨b, -, hp, -⟩ := valueBytes_of_lookup h1 (getDict_lookup h3)
    exact (parses_isMap hp).1
  rw [getDict_lookup h3] at hd2
  cases hd2
  have he : Encode (.dict (benInfo t.info)) = Encode (.dict d) := by
    rcases hs with ⟨name, pieces, pl, len, hs⟩ | ⟨name, pieces, pl, files, hs, hn, hf⟩
    · exact (C33_single name pieces wd pl len d hm hs t.info h4).2
    · exact (C33_multi_partial name pieces wd pl files hn hf d hm hs t.info h4).2
  unfold NewTorrent
  rw [he]
  cases hE : Encode (.dict d) with
  | mk b o =>
    cases o with
    | none =>
      refine ⟨fun _ => ?_, fun h => absurd rfl h⟩
      rw [hE] at h5
      obtain ⟨ih, an, info⟩ := t
      simp only at h5 ⊢
      rw [h5]
    | some e => exact ⟨fun h => by simp at h, fun _ => ⟨e, rfl⟩⟩

/-! ### deviations -/

/-- metadata of a torrent with a list of one file -/
def exOneFile : Dict := multiInfo (ascii "n") (ascii "AAAAAAAAAAAAAAAAAAAA") 4 [(3, [ascii "f"])]

/-- a map is not the same as another one with different keys -/
theorem not_same_of_key {d e : Dict} (k : Bytes) (h1 : k ∈ d.map Prod.fst) (h2 : k ∉ e.map Prod.fst) : ¬ Same (.dict d) (.dict e) := by
  intro h
  cases h with
  | dict _ _ h _ => exact h2 ((h k).mp h1)

/-- **C33** is false for a list of one file: it is written back as a single-file torrent with another path (and therefore another
info-hash). -/
theorem C33_refuted_one_file : ∃ ti, FromDict exOneFile (ascii "/w") = .ok ti ∧ ¬ Same (.dict exOneFile) (.dict (benInfo ti)) := by
  obtain ⟨ti, h⟩ := Res.isOk_iff (r := FromDict exOneFile (ascii "/w")) (by decide +kernel)
  refine ⟨ti, h, ?_⟩
  obtain ⟨n, p, ps, fes, h1, h2, h3, h4, h5⟩ := fromDict_ok h
  have hs : ti.isSingle = true := (newTorInfo_fields h5).2.2.2.1.mpr (by
    have e : entriesOf exOneFile (ascii "n") (ascii "/w") = .ok [⟨3, ascii "f", ascii "/w/n/f"⟩] := by decide +kernel
    have hn : n = ascii "n" := by
      have : exOneFile.lookup (ascii "name") = some (.str (ascii "n")) := by decide +kernel
      rw [this] at h1
      simp only [Option.some.injEq, Value.str.injEq] at h1
      exact h1.symm
    rw [hn, e] at h4
    cases h4
    rfl)
  apply not_same_of_key (ascii "files") (by decide +kernel)
  simp only [benInfo, hs, if_true, List.map_cons, List.map_nil]
  decide +kernel

/-- **C33** is false if the file asks for privacy: the flag is lost. -/
theorem C33_refuted_private : ∃ d ti, Same (.dict d) (.dict [(ascii "name", .str (ascii "a")), (ascii "piece length", .int64 1),
      (ascii "pieces", .str (ascii "AAAAAAAAAAAAAAAAAAAA")), (ascii "private", .int64 1), (ascii "length", .int64 1)]) ∧
    FromDict d (ascii "/w") = .ok ti ∧ ¬ Same (.dict d) (.dict (benInfo ti)) := by
  obtain ⟨ti, h⟩ := Res.isOk_iff (r := FromDict [(ascii "name", .str (ascii "a")), (ascii "piece length", .int64 1),
      (ascii "pieces", .str (ascii "AAAAAAAAAAAAAAAAAAAA")), (ascii "private", .int64 1), (ascii "length", .int64 1)] (ascii "/w"))
    (by decide +kernel)
  refine ⟨_, ti, same_refl ?_, h, ?_⟩
  · refine .dict _ (by decide +kernel) ?_
    intro e he
    simp only [List.mem_cons, List.not_mem_nil, or_false] at he
    rcases he with rfl | rfl | rfl | rfl | rfl <;> first | exact .str _ | exact .int64 _
  · intro hs
    cases hs with
    | dict _ _ _ h2 =>
      have := h2 (ascii "private") (.int64 1) (.int64 0) (by simp) (by simp [benInfo])
      have := same_int64 this
      omega

/-- **C33** is false for path components that contain a slash: they are split. -/
theorem C33_refuted_slash : ∃ e, benEntry (fileInfo (1, [ascii "a/b"])) = .ok e ∧
    ¬ Same (fileInfo (1, [ascii "a/b"])) (.dict (benDict e)) := by
  refine ⟨⟨1, ascii "a/b", ascii "a/b"⟩, by decide +kernel, ?_⟩
  intro hs
  cases hs with
  | dict _ _ _ h2 =>
    have := h2 (ascii "path") (.list [.str (ascii "a/b")]) (.list [.str (ascii "a"), .str (ascii "b")]) (by simp) (by
      have : splitSlash (ascii "a/b") = [ascii "a", ascii "b"] := by decide +kernel
      simp [benDict, this])
    cases this with
    | list _ _ hl _ => simp at hl

/-- hypotheses of the positive theorems: two files in nested directories -/
example : ∃ ti, FromDict (multiInfo (ascii "n") (ascii "AAAAAAAAAAAAAAAAAAAA") 8 [(3, [ascii "d", ascii "f"]), (4, [ascii "g"])]) (ascii "/w") = .ok ti :=
  Res.isOk_iff (by decide +kernel)
example : ∃ ti, FromDict (singleInfo (ascii "n") (ascii "AAAAAAAAAAAAAAAAAAAA") 8 5) (ascii "/w") = .ok ti :=
  Res.isOk_iff (by decide +kernel)

end Verif.Torrent
