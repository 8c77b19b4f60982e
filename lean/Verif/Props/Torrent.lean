import Verif.Lemmas.Torrent
import Verif.Props.Create
import Verif.Lemmas.BencodePartial
import Verif.Lemmas.ValueEq
/-
Properties C32–C35: loading torrent files (/repo/src/torrent).
-/
set_option autoImplicit false

namespace Verif.Torrent
open Verif.Files Verif.Bencode Verif.Bencode.Spec Verif.Path

/-! ### C32 -/

theorem decode_dict_nospare {data sp : Bytes} {d : Dict} (h : Decode data sp = .ok (.dict d)) :
    Decode data [] = .ok (.dict d) := by
  cases data with
  | nil => cases h
  | cons c r =>
    have hc : c = 100 := by
      obtain ⟨q, h'⟩ := (decode_ok_iff _ _ _).mp h
      rw [decodeValue_cons] at h'
      by_cases h1 : c = 100
      · exact h1
      · rw [if_neg h1] at h'
        split at h'
        · obtain ⟨⟨es, r1⟩, ha, hb⟩ := Res.bind_eq_ok.mp h'
          simp at hb
        · split at h'
          · obtain ⟨⟨es, r1⟩, ha, hb⟩ := Res.bind_eq_ok.mp h'
            simp at hb
          · obtain ⟨⟨es, r1⟩, ha, hb⟩ := Res.bind_eq_ok.mp h'
            simp at hb
    rw [← decode_spare_eq c r sp (.inl hc)]
    exact h


/-- what the file contents must look like for FromTorrentFile to succeed -/
theorem fromTorrentFile_ok {H : Bytes → Bytes} {data sp wd : Bytes} {t : Torrent}
    (h : FromTorrentFile H (some data) sp wd = .ok t) :
    ∃ d infod, Decode data [] = .ok (.dict d) ∧ Dict.getString d (ascii "announce") = .ok t.announce ∧
      Dict.getDict d (ascii "info") = .ok infod ∧ FromDict infod wd = .ok t.info ∧ t.infohash = H (Encode (.dict infod)).1 := by
  unfold FromTorrentFile at h
  obtain ⟨v, h1, h⟩ := Res.bind_eq_ok.mp h
  cases v <;> simp only at h
  case dict d =>
    obtain ⟨an, h2, h⟩ := Res.bind_eq_ok.mp h
    obtain ⟨infod, h3, h⟩ := Res.bind_eq_ok.mp h
    obtain ⟨ti, h4, h⟩ := Res.bind_eq_ok.mp h
    simp only [Res.ok.injEq] at h
    subst h
    exact ⟨d, infod, decode_dict_nospare h1, h2, h3, h4, rfl⟩
  all_goals cases h

theorem valueBytes_of_lookup {data : Bytes} {d : Dict} {k : Bytes} {v : Value} (h : Decode data [] = .ok (.dict d))
    (hl : d.lookup k = some v) : ∃ b, ValueBytes k data b ∧ Parses v b ∧ b.length ≤ data.length := by
  obtain ⟨r, h⟩ := (decode_ok_iff _ _ _).mp h
  obtain ⟨b, rfl, hp⟩ := (decode_parses _).1 _ _ _ h
  cases hp with
  | dict es d hk hv hlw =>
    have hm : (k, v) ∈ d := (lookup_some_iff hlw.1).mp hl
    obtain ⟨pre, post, he, hn⟩ := (hlw.2 _ _).mp hm
    obtain ⟨pre', rest', rfl, rfl, hr⟩ := List.map_eq_append_iff.mp he
    obtain ⟨e, post', rfl, hee, rfl⟩ := List.map_eq_cons_iff.mp hr
    simp only [Prod.mk.injEq] at hee
    refine ⟨e.valDoc, ⟨pre', post', e, r, rfl, fun x hx => ⟨hk x hx, hv x hx⟩, hee.1, rfl, ?_⟩, ?_, ?_⟩
    · intro x hx hxk
      apply hn
      rw [List.map_map]
      exact List.mem_map.mpr ⟨x, hx, hxk⟩
    · rw [← hee.2]; exact hv e (by simp)
    · simp only [List.map_append, List.map_cons, List.flatten_append, List.flatten_cons, List.length_append]
      omega

theorem items_unique {es fs : List Item} {r r' : Bytes}
    (h1 : ∀ x ∈ es, StrDoc x.key x.keyDoc ∧ Parses x.value x.valDoc)
    (h2 : ∀ x ∈ fs, StrDoc x.key x.keyDoc ∧ Parses x.value x.valDoc)
    (he : (es.map fun e => e.keyDoc ++ e.valDoc).flatten ++ (101 : UInt8) :: r =
      (fs.map fun e => e.keyDoc ++ e.valDoc).flatten ++ (101 : UInt8) :: r') :
    es.map (fun e => (e.key, e.valDoc)) = fs.map (fun e => (e.key, e.valDoc)) := by
  have head : ∀ (x : Item) (q r : Bytes), StrDoc x.key x.keyDoc → (101 : UInt8) :: q = x.keyDoc ++ r → False := by
    intro x q r hx hh
    obtain ⟨c, t, hc, hd⟩ := strDoc_head hx
    rw [hc, List.cons_append] at hh
    exact (isDigit_lit hd).2.2.2.1 (List.cons.inj hh).1.symm
  induction es generalizing fs with
  | nil =>
    cases fs with
    | nil => rfl
    | cons f fs =>
      simp only [List.map_nil, List.flatten_nil, List.nil_append, List.map_cons, List.flatten_cons, List.append_assoc] at he
      exact (head f _ _ (h2 f (by simp)).1 he).elim
  | cons e es ih =>
    cases fs with
    | nil =>
      simp only [List.map_nil, List.flatten_nil, List.nil_append, List.map_cons, List.flatten_cons, List.append_assoc] at he
      exact (head e _ _ (h1 e (by simp)).1 he.symm).elim
    | cons f fs =>
      simp only [List.map_cons, List.flatten_cons, List.append_assoc] at he
      obtain ⟨-, he, hk⟩ := strDoc_unique (h1 e (by simp)).1 (h2 f (by simp)).1 he
      obtain ⟨hv, he, -⟩ := parses_unique (h1 e (by simp)).2 (h2 f (by simp)).2 he
      have := ih (fun x hx => h1 x (by simp [hx])) (fun x hx => h2 x (by simp [hx])) he
      simp only [List.map_cons, hk, hv, this]

/-- the bytes of a value in a file are well defined -/
theorem valueBytes_unique {k data b b' : Bytes} (h : ValueBytes k data b) (h' : ValueBytes k data b') : b = b' := by
  obtain ⟨pre, post, e, rest, hd, hp, hk, rfl, hn⟩ := h
  obtain ⟨pre', post', e', rest', hd', hp', hk', rfl, hn'⟩ := h'
  rw [hd] at hd'
  have hu := items_unique hp hp' (r := rest) (r' := rest') (by simpa [ascii] using hd')
  have last : ∀ (pre post : List Item) (e : Item), e.key = k → (∀ x ∈ post, x.key ≠ k) →
      ((pre ++ e :: post).map fun e => (e.key, e.valDoc)).reverse.lookup k = some e.valDoc := by
    intro pre post e he hn
    rw [List.lookup_eq_some_iff]
    refine ⟨(post.map fun e => (e.key, e.valDoc)).reverse, (pre.map fun e => (e.key, e.valDoc)).reverse, by simp [he], ?_⟩
    intro p hp
    obtain ⟨x, hx, rfl⟩ := List.mem_map.mp (List.mem_reverse.mp hp)
    simpa using Ne.symm (hn x hx)
  have h1 := last pre post e hk hn
  have h2 := last pre' post' e' hk' hn'
  rw [hu, h2] at h1
  exact (Option.some.inj h1).symm

/-- **C32**, exact: for every accepted file, the info-hash is the hash of certain bytes, and those are the bytes of the info
dictionary in the file if and only if these are canonical bencode (keys strictly sorted, minimal numbers, no empty string).
Missing from the property: the other files (`C32_refuted_noncanonical`, `C32_refuted_collision`). -/
theorem C32_iff_canonical_partial (data sp wd : Bytes) (hlen : data.length < 2 ^ 63)
    (hok : ∃ H t, FromTorrentFile H (some data) sp wd = .ok t) :
    ∃ b hashed announce info, ValueBytes (ascii "info") data b ∧ (∀ b', ValueBytes (ascii "info") data b' → b' = b) ∧
      (∀ H, FromTorrentFile H (some data) sp wd = .ok ⟨H hashed, announce, info⟩) ∧
      (hashed = b ↔ ∃ v, Canon v b) := by
  obtain ⟨H, t, h⟩ := hok
  obtain ⟨d, infod, h1, h2, h3, h4, h5⟩ := fromTorrentFile_ok h
  obtain ⟨b, hb, hp, hl⟩ := valueBytes_of_lookup h1 (getDict_lookup h3)
  refine ⟨b, (Encode (.dict infod)).1, t.announce, t.info, hb, fun b' hb' => valueBytes_unique hb' hb, ?_,
    reencode_iff hp (by omega)⟩
  intro H'
  unfold FromTorrentFile at h ⊢
  obtain ⟨v, g1, h⟩ := Res.bind_eq_ok.mp h
  simp only [g1, Res.ok_bind]
  cases v <;> simp only at h ⊢
  case dict d' =>
    have := decode_dict_nospare g1
    rw [h1] at this
    cases this
    rw [h2, h3, Res.ok_bind, Res.ok_bind, h4, Res.ok_bind]
  all_goals cases h

/-- **C32** for files with a canonical info dictionary. -/
theorem C32_canonical_partial (H : Bytes → Bytes) (data sp wd b : Bytes) (hlen : data.length < 2 ^ 63) (t : Torrent)
    (h : FromTorrentFile H (some data) sp wd = .ok t) (hb : ValueBytes (ascii "info") data b) (v : Value) (hc : Canon v b) :
    t.infohash = H b := by
  obtain ⟨b', hashed, an, info, h1, h2, h3, h4⟩ := C32_iff_canonical_partial data sp wd hlen ⟨H, t, h⟩
  have e := h2 b hb
  subst e
  rw [h3 H] at h
  cases h
  rw [h4.mpr ⟨v, hc⟩]

/-- a small torrent file: single file, given document of the name and piece hash -/
def exFile (name hash : String) : Bytes :=
  ascii "d8:announce3:url4:infod6:lengthi1e4:name" ++ ascii name ++ ascii "12:piece lengthi1e6:pieces20:" ++ ascii hash ++ ascii "ee"

/-- an unsorted info dictionary -/
def exUnsorted : Bytes := ascii "d4:name1:a6:lengthi1e12:piece lengthi1e6:pieces20:AAAAAAAAAAAAAAAAAAAAe"

theorem parses_of_decode {v : Value} {b : Bytes} (f : Nat) (h : decodeValue f [] b = .ok (v, [])) : Parses v b := by
  obtain ⟨b', hb, hp⟩ := (decode_parses f).1 _ _ _ h
  rw [List.append_nil] at hb
  rwa [hb]

theorem ex_valueBytes (b : Bytes) (v : Value) (h : Parses v b) :
    ValueBytes (ascii "info") (ascii "d8:announce3:url4:info" ++ b ++ ascii "e") b := by
  have s1 : StrDoc (ascii "announce") (ascii "8:announce") := ⟨ascii "8", ⟨by decide +kernel, by decide +kernel, by decide +kernel⟩, by decide +kernel, by decide +kernel⟩
  have s2 : StrDoc (ascii "url") (ascii "3:url") := ⟨ascii "3", ⟨by decide +kernel, by decide +kernel, by decide +kernel⟩, by decide +kernel, by decide +kernel⟩
  have s3 : StrDoc (ascii "info") (ascii "4:info") := ⟨ascii "4", ⟨by decide +kernel, by decide +kernel, by decide +kernel⟩, by decide +kernel, by decide +kernel⟩
  refine ⟨[⟨ascii "announce", ascii "8:announce", .str (ascii "url"), ascii "3:url"⟩], [], ⟨ascii "info", ascii "4:info", v, b⟩, [],
    ?_, ?_, rfl, rfl, by simp⟩
  · simp [ascii]
  · intro x hx
    simp only [List.cons_append, List.nil_append, List.mem_cons, List.not_mem_nil, or_false] at hx
    rcases hx with rfl | rfl
    · exact ⟨s1, .str _ _ s2⟩
    · exact ⟨s3, h⟩

theorem fromTorrentFile_eq {data : Bytes} {d infod : Dict} {an sp wd : Bytes} {ti : TorInfo} (h1 : Decode data sp = .ok (.dict d))
    (h2 : Dict.getString d (ascii "announce") = .ok an) (h3 : Dict.getDict d (ascii "info") = .ok infod)
    (h4 : FromDict infod wd = .ok ti) (H : Bytes → Bytes) :
    FromTorrentFile H (some data) sp wd = .ok ⟨H (Encode (.dict infod)).1, an, ti⟩ := by
  unfold FromTorrentFile
  simp only [h1, Res.ok_bind, h2, h3, h4]

theorem natDec_12 : natDec 12 = [49, 50] := by
  rw [natDec, if_neg (by decide), natDec, if_pos (by decide)]; decide
theorem natDec_20 : natDec 20 = [50, 48] := by
  rw [natDec, if_neg (by decide), natDec, if_pos (by decide)]; decide

/-- info dictionary of the examples -/
def exInfo (name hash : String) : Dict :=
  [(ascii "length", .int64 1), (ascii "name", .str (ascii name)), (ascii "piece length", .int64 1), (ascii "pieces", .str (ascii hash))]
/-- the same dictionary, unsorted -/
def exInfo' : Dict :=
  [(ascii "name", .str (ascii "a")), (ascii "length", .int64 1), (ascii "piece length", .int64 1),
    (ascii "pieces", .str (ascii "AAAAAAAAAAAAAAAAAAAA"))]

def exSorted : Bytes := ascii "d6:lengthi1e4:name1:a12:piece lengthi1e6:pieces20:AAAAAAAAAAAAAAAAAAAAe"

theorem exInfo'_encode : (Encode (.dict exInfo')).1 = exSorted := by
  simp [exInfo', exSorted, Encode, encode, encodeEntries, encodeSorted, List.mergeSort, List.MergeSort.Internal.splitInTwo,
    bytesLe, ascii, wrapEnc, seqEnc, encodeString, encodeInt, natDec_lt, intDec, natDec_12, natDec_20]

theorem exInfo_encode : (Encode (.dict (exInfo "a" "AAAAAAAAAAAAAAAAAAAA"))).1 = exSorted := by
  simp [exInfo, exSorted, Encode, encode, encodeEntries, encodeSorted, List.mergeSort, List.MergeSort.Internal.splitInTwo,
    bytesLe, ascii, wrapEnc, seqEnc, encodeString, encodeInt, natDec_lt, intDec, natDec_12, natDec_20]

theorem exEmpty_encode (hash : String) : (Encode (.dict (exInfo "" hash))).1 = ascii "d6:lengthi1e4:name" := by
  simp [exInfo, Encode, encode, encodeEntries, encodeSorted, List.mergeSort, List.MergeSort.Internal.splitInTwo,
    bytesLe, ascii, wrapEnc, seqEnc, encodeString, encodeInt, natDec_lt, intDec]

/-- a test that can be evaluated -/
def Res.isOk {α : Type} : Res α → Bool
  | .ok _ => true
  | _ => false
theorem Res.isOk_iff {α : Type} {r : Res α} (h : Res.isOk r = true) : ∃ a, r = .ok a := by
  cases r <;> simp [Res.isOk] at h
  exact ⟨_, rfl⟩

theorem fromDict_hashes {d : Dict} {wd : Bytes} {ti : TorInfo} (h : FromDict d wd = .ok ti) :
    d.lookup (ascii "pieces") = some (.str ti.hashes) := by
  unfold FromDict at h
  obtain ⟨a, h1, h⟩ := Res.bind_eq_ok.mp h
  obtain ⟨b, h2, h⟩ := Res.bind_eq_ok.mp h
  obtain ⟨c, h3, h⟩ := Res.bind_eq_ok.mp h
  obtain ⟨e, h4, h⟩ := Res.bind_eq_ok.mp h
  unfold NewTorInfo at h
  split at h
  · cases h
  · obtain ⟨fl, -, h⟩ := Res.bind_eq_ok.mp h
    obtain ⟨pm, -, h⟩ := Res.bind_eq_ok.mp h
    simp only [Res.ok.injEq] at h
    subst h
    exact getString_lookup h3

/-- **C32** is false: for a file with an unsorted info dictionary other bytes are hashed. -/
theorem C32_refuted_noncanonical :
    ∃ data b hashed announce info, ValueBytes (ascii "info") data b ∧ hashed ≠ b ∧
      ∀ H, FromTorrentFile H (some data) [] (ascii "/w") = .ok ⟨H hashed, announce, info⟩ := by
  have hp : Parses (.dict exInfo') exUnsorted := parses_of_decode 200 (by decide +kernel)
  have hd : Decode (ascii "d8:announce3:url4:info" ++ exUnsorted ++ ascii "e") [] =
      .ok (.dict [(ascii "announce", .str (ascii "url")), (ascii "info", .dict exInfo')]) := by decide +kernel
  obtain ⟨ti, h4⟩ := Res.isOk_iff (r := FromDict exInfo' (ascii "/w")) (by decide +kernel)
  refine ⟨ascii "d8:announce3:url4:info" ++ exUnsorted ++ ascii "e", exUnsorted, exSorted, ascii "url", ti, ex_valueBytes _ _ hp, by decide, fun H => ?_⟩
  rw [fromTorrentFile_eq (an := ascii "url") (infod := exInfo') hd (by decide +kernel) (by decide +kernel) h4, exInfo'_encode]

/-- **C32** is false, and the consequences are severe: two torrents with different contents get the same info-hash, for
every hash function, because the encoder's error about the empty name is dropped and everything behind it is not hashed. -/
theorem C32_refuted_collision :
    ∃ d1 d2 hashed announce info1 info2, info1.hashes ≠ info2.hashes ∧
      ∀ H, FromTorrentFile H (some d1) [] (ascii "/w") = .ok ⟨H hashed, announce, info1⟩ ∧
        FromTorrentFile H (some d2) [] (ascii "/w") = .ok ⟨H hashed, announce, info2⟩ := by
  have hd1 : Decode (exFile "0:" "AAAAAAAAAAAAAAAAAAAA") [] =
      .ok (.dict [(ascii "announce", .str (ascii "url")), (ascii "info", .dict (exInfo "" "AAAAAAAAAAAAAAAAAAAA"))]) := by
    decide +kernel
  have hd2 : Decode (exFile "0:" "BBBBBBBBBBBBBBBBBBBB") [] =
      .ok (.dict [(ascii "announce", .str (ascii "url")), (ascii "info", .dict (exInfo "" "BBBBBBBBBBBBBBBBBBBB"))]) := by
    decide +kernel
  obtain ⟨t1, h1⟩ := Res.isOk_iff (r := FromDict (exInfo "" "AAAAAAAAAAAAAAAAAAAA") (ascii "/w")) (by decide +kernel)
  obtain ⟨t2, h2⟩ := Res.isOk_iff (r := FromDict (exInfo "" "BBBBBBBBBBBBBBBBBBBB") (ascii "/w")) (by decide +kernel)
  refine ⟨exFile "0:" "AAAAAAAAAAAAAAAAAAAA", exFile "0:" "BBBBBBBBBBBBBBBBBBBB", ascii "d6:lengthi1e4:name", ascii "url", t1, t2, ?_, fun H => ⟨?_, ?_⟩⟩
  · intro he
    have g1 := fromDict_hashes h1
    rw [he] at g1
    have := fromDict_hashes h2
    have e1 : (exInfo "" "AAAAAAAAAAAAAAAAAAAA").lookup (ascii "pieces") = some (.str (ascii "AAAAAAAAAAAAAAAAAAAA")) := by decide +kernel
    have e2 : (exInfo "" "BBBBBBBBBBBBBBBBBBBB").lookup (ascii "pieces") = some (.str (ascii "BBBBBBBBBBBBBBBBBBBB")) := by decide +kernel
    rw [e1] at g1
    rw [e2, ← g1] at this
    revert this
    decide +kernel
  · rw [fromTorrentFile_eq (an := ascii "url") (infod := exInfo "" "AAAAAAAAAAAAAAAAAAAA") hd1 (by decide +kernel) (by decide +kernel) h1, exEmpty_encode]
  · rw [fromTorrentFile_eq (an := ascii "url") (infod := exInfo "" "BBBBBBBBBBBBBBBBBBBB") hd2 (by decide +kernel) (by decide +kernel) h2, exEmpty_encode]

/-- the hypotheses of the positive theorems are met by a file with a sorted info dictionary -/
example : ∃ v, ValueBytes (ascii "info") (ascii "d8:announce3:url4:info" ++ exSorted ++ ascii "e") exSorted ∧ Canon v exSorted ∧
    ∃ t, FromTorrentFile id (some (ascii "d8:announce3:url4:info" ++ exSorted ++ ascii "e")) [] (ascii "/w") = .ok t := by
  have hp : Parses (.dict (exInfo "a" "AAAAAAAAAAAAAAAAAAAA")) exSorted := parses_of_decode 200 (by decide +kernel)
  have hd : Decode (ascii "d8:announce3:url4:info" ++ exSorted ++ ascii "e") [] =
      .ok (.dict [(ascii "announce", .str (ascii "url")), (ascii "info", .dict (exInfo "a" "AAAAAAAAAAAAAAAAAAAA"))]) := by
    decide +kernel
  obtain ⟨ti, h4⟩ := Res.isOk_iff (r := FromDict (exInfo "a" "AAAAAAAAAAAAAAAAAAAA") (ascii "/w")) (by decide +kernel)
  obtain ⟨v, hv⟩ := (reencode_iff hp (by decide)).mp exInfo_encode
  exact ⟨v, ex_valueBytes _ _ hp, hv, _, fromTorrentFile_eq (an := ascii "url") (infod := exInfo "a" "AAAAAAAAAAAAAAAAAAAA") hd (by decide +kernel) (by decide +kernel) h4 id⟩

end Verif.Torrent
