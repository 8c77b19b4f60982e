import Verif.Lemmas.LoadText
import Verif.Lemmas.Format
/-
Property C105: what is said about a torrent file that is refused (/repo/src/torrent/torrent.go:70-111, info/info.go:196-247, filesd/entrybase.go:54-91,
/repo/src/bencode/dict.go).
-/
set_option autoImplicit false

namespace Verif.LoadText
open Verif.Bencode Verif.Bencode.Spec Verif.Files Verif.Torrent Verif.Path Verif.Info Verif.Layout

/-- **C105**: the texts belong to the errors of `FromTorrentFile`: it returns the same torrent, or returns an error and there is a text, or panics. -/
theorem C105_same (H : Bytes → Bytes) (osErr : Bytes) (fdata : Option Bytes) (sp wd : Bytes) :
    (∃ t, FromTorrentFile H fdata sp wd = .ok t ∧ FromTorrentFileT H osErr fdata sp wd = .ok t) ∨
    (∃ e w, FromTorrentFile H fdata sp wd = .err e ∧ FromTorrentFileT H osErr fdata sp wd = .err w) ∨
    (FromTorrentFile H fdata sp wd = .panic ∧ FromTorrentFileT H osErr fdata sp wd = .panic) := by
  have h := agree_load H osErr fdata sp wd
  revert h
  generalize FromTorrentFile H fdata sp wd = r
  generalize FromTorrentFileT H osErr fdata sp wd = o
  intro h
  cases h with
  | ok a => exact .inl ⟨a, rfl, rfl⟩
  | err e w => exact .inr (.inl ⟨e, w, rfl, rfl⟩)
  | panic => exact .inr (.inr ⟨rfl, rfl⟩)

theorem decodeT_eq {data sp : Bytes} {v : Value} (h : Decode data sp = .ok v) : DecodeText.DecodeT data sp = .value v := by
  rcases DecodeText.C104_same data sp with ⟨v', h1, h2⟩ | ⟨e, t, h1, h2⟩
  · rw [h] at h1
    cases h1
    exact h2
  · rw [h] at h1
    cases h1

theorem decodeT_err {data sp : Bytes} {e : Err} (h : Decode data sp = .err e) : ∃ t, DecodeText.DecodeT data sp = .error t := by
  rcases DecodeText.C104_same data sp with ⟨v', h1, h2⟩ | ⟨e, t, h1, h2⟩
  · rw [h] at h1
    cases h1
  · exact ⟨t, h2⟩

/-- **C105**: a file that cannot be read, that is not bencoded, or that is not a dictionary.  The texts of the decoder are those of C104. -/
theorem C105_unreadable (H : Bytes → Bytes) (osErr sp wd addr : Bytes) :
    (∃ w, FromTorrentFileT H osErr none sp wd = .err w ∧ w.text addr = osErr) ∧
    (∀ data e, Decode data sp = .err e → ∃ w, FromTorrentFileT H osErr (some data) sp wd = .err w ∧ DecodeText.DecodeT data sp = .error (w.text addr)) ∧
    (∀ data v, Decode data sp = .ok v → ¬ Is .dict v →
      ∃ w, FromTorrentFileT H osErr (some data) sp wd = .err w ∧ w.text addr = ascii "tracker error: decoded bencoding is not a dictionary") := by
  refine ⟨⟨_, rfl, rfl⟩, ?_, ?_⟩
  · intro data e h
    obtain ⟨t, ht⟩ := decodeT_err h
    refine ⟨.decode t, ?_, ht⟩
    simp only [FromTorrentFileT, ht]
  · intro data v h hv
    refine ⟨.notDict, ?_, rfl⟩
    simp only [FromTorrentFileT, decodeT_eq h]
    cases v with
    | dict d => exact absurd (.dict d) hv
    | _ => rfl

theorem found_eq {k : Kind} {v : Value} (h : Is k v) : goType v = k.found := by
  cases h <;> rfl

/-- what the errors of the getters say -/
theorem bad_text {d : Dict} {b key : Bytes} {k : Kind} {w : Why} (hp : Parses (.dict d) b) (h : Bad d key k w) (addr : Bytes) :
    (Lacks d key ∧ w.text addr = missingText addr key) ∨
    ∃ v k', Has d key v ∧ Is k' v ∧ k' ≠ k ∧ w.text addr = typeText (if k = .dict then ascii "0x0" else addr) key k k' := by
  cases h with
  | missing h =>
    refine .inl ⟨?_, rfl⟩
    intro v hv
    unfold Has at hv
    rw [h] at hv
    cases hv
  | wrong v h hn =>
    obtain ⟨b', hb⟩ := parses_lookup hp h
    obtain ⟨k', hk⟩ := parses_kind hb
    refine .inr ⟨v, k', h, hk, ?_, ?_⟩
    · rintro rfl
      exact hn hk
    · simp only [Why.text, typeText, found_eq hk, decide_eq_true_eq]

/-- the loop of `MakePieceMap` for positive piece lengths and lengths that are not negative -/
theorem counted_eq {pl : Int} {np : Nat} {es : List EntryBase} {fl : List Entry} {n t : Int} (hpl : 0 < pl) (hes : ∀ e ∈ es, 0 ≤ e.length)
    (hl : MakeFileList es pl = .ok fl) (ht : t = (es.map EntryBase.length).sum) (h : MakePieceMapT fl np pl t = .err (.counted n t)) : n = np * pl := by
  obtain ⟨p, rfl⟩ : ∃ p : Nat, pl = p := ⟨pl.toNat, by omega⟩
  have hp : 0 < p := by omega
  rw [makeFileList_eq p hp es hes] at hl
  cases hl
  have h0 : startPos (lens es) 0 = 0 := by simp [startPos]
  obtain ⟨a, b⟩ := loop_files hes (np := np) hp es 0 rfl ⟨List.replicate np [], 0, p, 0⟩ (by rw [h0]; exact at_init _ _ _) (by rw [h0]; omega)
  rw [h0] at a b
  unfold MakePieceMapT at h
  rcases Nat.lt_or_ge (np * p) (total (lens es)) with hlt | hge
  · rcases b hlt with ⟨-, st, h1, h2⟩ | ⟨-, h1⟩
    · rw [h1] at h
      simp only at h
      split at h
      · cases h
        rw [h2.counted]
        simp
      · cases h
    · rw [h1] at h
      cases h
  · obtain ⟨st, h1, h2⟩ := a hge
    rw [h1] at h
    simp only at h
    split at h
    · rename_i hne
      rw [h2.counted, ht, sum_lens es hes] at hne
      exact absurd rfl hne
    · cases h

/-- **C105**, exactly what can be said about a dictionary that is refused, and when.  It is one of
* a key that is needed and is missing;
* a key that is needed and has a value of another type;
* there is neither a number `length` nor a list `files`;
* an element of `files` is not a dictionary;
* an element of a path is not a string;
* the length of `pieces` is not a multiple of 20;
* the hashes end at the end of a file that is not the last one: for how many bytes there are hashes, and the sum of the lengths.

The address in the first two texts is `addr`, or 0x0 if a dictionary was asked for. -/
theorem C105_says (H : Bytes → Bytes) (osErr data sp wd addr : Bytes) (top : Dict) (w : Why) (hd : Decode data sp = .ok (.dict top))
    (h : FromTorrentFileT H osErr (some data) sp wd = .err w) :
    (∃ d key k, Needs top d key k ∧ Lacks d key ∧ w.text addr = missingText addr key) ∨
    (∃ d key k v k', Needs top d key k ∧ Has d key v ∧ Is k' v ∧ k' ≠ k ∧ w.text addr = typeText (if k = .dict then ascii "0x0" else addr) key k k') ∨
    (∃ info, Has top (ascii "info") (.dict info) ∧ (∀ v, Has info (ascii "length") v → ¬ Is .int v) ∧ (∀ v, Has info (ascii "files") v → ¬ Is .list v) ∧
      w.text addr = ascii "tracker error: missing keys 'length' and 'files', must have exactly 1") ∨
    (∃ v, FileEntry top v ∧ ¬ Is .dict v ∧ w.text addr = ascii "failed to convert file entry to dictionary") ∨
    (∃ f vs v, FileEntry top (.dict f) ∧ Has f (ascii "path") (.list vs) ∧ v ∈ vs ∧ ¬ Is .str v ∧
      w.text addr = errorf (ascii "file entry contains invalid path [" ++ fmtV v ++ ascii "]")) ∨
    (∃ info ps, Has top (ascii "info") (.dict info) ∧ Has info (ascii "pieces") (.str ps) ∧ ¬ 20 ∣ ps.length ∧
      w.text addr = ascii "hashes must be multiple of 20") ∨
    (∃ info ps pl ns n, Has top (ascii "info") (.dict info) ∧ Has info (ascii "pieces") (.str ps) ∧ Has info (ascii "piece length") (.int64 pl) ∧
      LengthsOf info ns ∧ n ≠ ns.sum ∧ (0 < pl → (∀ x ∈ ns, 0 ≤ x) → n = (ps.length / 20 : Nat) * pl) ∧
      w.text addr = ascii "only accounted for " ++ intDec n ++ ascii "/" ++ intDec ns.sum ++ ascii " bytes") := by
  obtain ⟨b, hp⟩ := decode_parses' hd
  have needs : ∀ {d key k b'}, Parses (.dict d) b' → Needs top d key k → Bad d key k w →
      (∃ d key k, Needs top d key k ∧ Lacks d key ∧ w.text addr = missingText addr key) ∨
      (∃ d key k v k', Needs top d key k ∧ Has d key v ∧ Is k' v ∧ k' ≠ k ∧ w.text addr = typeText (if k = .dict then ascii "0x0" else addr) key k k') := by
    intro d key k b' hp hn hb
    rcases bad_text hp hb addr with ⟨h1, h2⟩ | ⟨v, k', h1, h2, h3, h4⟩
    · exact .inl ⟨d, key, k, hn, h1, h2⟩
    · exact .inr ⟨d, key, k, v, k', hn, h1, h2, h3, h4⟩
  have fst : ∀ {d key k b'} {P : Prop}, Parses (.dict d) b' → Needs top d key k → Bad d key k w →
      (∃ d key k, Needs top d key k ∧ Lacks d key ∧ w.text addr = missingText addr key) ∨
      (∃ d key k v k', Needs top d key k ∧ Has d key v ∧ Is k' v ∧ k' ≠ k ∧ w.text addr = typeText (if k = .dict then ascii "0x0" else addr) key k k') ∨ P := by
    intro d key k b' P hp hn hb
    rcases needs hp hn hb with h | h
    · exact .inl h
    · exact .inr (.inl h)
  unfold FromTorrentFileT at h
  simp only [decodeT_eq hd] at h
  rcases string_out top (ascii "announce") with ⟨an, -, h1⟩ | ⟨w', h1, hb⟩
  rotate_left
  · rw [h1] at h; cases h
    exact fst hp .announce hb
  simp only [h1, Out.bind] at h
  rcases dict_out top (ascii "info") with ⟨info, hi, h1⟩ | ⟨w', h1, hb⟩
  rotate_left
  · simp only [h1] at h; cases h
    exact fst hp .info hb
  simp only [h1] at h
  obtain ⟨bi, hpi⟩ := parses_lookup hp hi
  have h' : FromDictT info wd = .err w := by
    cases hx : FromDictT info wd with
    | ok a => rw [hx] at h; cases h
    | err e => rw [hx] at h; cases h; rfl
    | panic => rw [hx] at h; cases h
    | timeout => rw [hx] at h; cases h
  clear h
  unfold FromDictT at h'
  rcases string_out info (ascii "name") with ⟨name, -, h1⟩ | ⟨w', h1, hb⟩
  rotate_left
  · simp only [h1, Out.bind] at h'; cases h'
    exact fst hpi (.name info hi) hb
  simp only [h1, Out.bind] at h'
  rcases int_out info (ascii "piece length") with ⟨pl, hpl, h1⟩ | ⟨w', h1, hb⟩
  rotate_left
  · simp only [h1] at h'; cases h'
    exact fst hpi (.pieceLen info hi) hb
  simp only [h1] at h'
  rcases string_out info (ascii "pieces") with ⟨ps, hps, h1⟩ | ⟨w', h1, hb⟩
  rotate_left
  · simp only [h1] at h'; cases h'
    exact fst hpi (.pieces info hi) hb
  simp only [h1] at h'
  cases he : entriesT info name wd with
  | panic => rw [he] at h'; cases h'
  | timeout => rw [he] at h'; cases h'
  | err w' =>
    simp only [he] at h'
    cases h'
    unfold entriesT at he
    rcases int_out info (ascii "length") with ⟨n, -, h2⟩ | ⟨w1, h2, hb1⟩
    · rw [h2] at he; cases he
    · simp only [h2] at he
      have nolen : ∀ v, Has info (ascii "length") v → ¬ Is .int v := by
        intro v hv
        cases hb1 with
        | missing hm => unfold Has at hv; rw [hm] at hv; cases hv
        | wrong u hu hn => unfold Has at hv; rw [hu] at hv; cases hv; exact hn
      rcases list_out info (ascii "files") with ⟨fs, hfs, h3⟩ | ⟨w2, h3, hb2⟩
      · simp only [h3] at he
        cases hx : FromBenListT fs with
        | ok es => rw [hx] at he; cases he
        | panic => rw [hx] at he; cases he
        | timeout => rw [hx] at he; cases he
        | err w3 =>
          rw [hx] at he
          cases he
          obtain ⟨v, hv, hbad⟩ := benList_out hx
          have hfe : FileEntry top v := .mk info fs v hi (fun n hn => nolen _ hn (.int n)) hfs hv
          obtain ⟨bl, hpl'⟩ := parses_lookup hpi hfs
          obtain ⟨bv, hpv⟩ := parses_mem hpl' hv
          cases hbad with
          | notDict _ hn => exact .inr (.inr (.inr (.inl ⟨v, hfe, hn, rfl⟩)))
          | length f w hb => exact fst hpv (.fileLen f hfe) hb
          | path f w hb => exact fst hpv (.filePath f hfe) hb
          | element f vs u hl hu hn => exact .inr (.inr (.inr (.inr (.inl ⟨f, vs, u, hfe, hl, hu, hn, rfl⟩))))
      · simp only [h3] at he
        cases he
        refine .inr (.inr (.inl ⟨info, hi, nolen, ?_, rfl⟩))
        intro v hv
        cases hb2 with
        | missing hm => unfold Has at hv; rw [hm] at hv; cases hv
        | wrong u hu hn => unfold Has at hv; rw [hu] at hv; cases hv; exact hn
  | ok es =>
    simp only [he] at h'
    unfold NewTorInfoT at h'
    split at h'
    · rename_i h20
      cases h'
      exact .inr (.inr (.inr (.inr (.inr (.inl ⟨info, ps, hi, hps, fun hd => h20 (Nat.mod_eq_zero_of_dvd hd), rfl⟩)))))
    · have hag := agree_entries info name wd
      rw [he] at hag
      generalize hr : entriesOf info name wd = r at hag
      cases hag
      rcases entriesOf_cases info name wd with ⟨ns, es', g1, g2, g3⟩ | ⟨-, g⟩ | ⟨-, -, e, g⟩
      rotate_left
      · rw [hr] at g; cases g
      · rw [hr] at g; cases g
      rw [hr] at g2
      cases g2
      have hml : MakeFileList es pl = .ok (fileListLoop pl 0 0 es) ∨ MakeFileList es pl = .panic := by
        unfold MakeFileList
        split
        · exact .inr rfl
        · exact .inl rfl
      rcases hml with hml | hml
      rotate_left
      · rw [hml] at h'; cases h'
      rw [hml] at h'
      simp only at h'
      cases hm : MakePieceMapT (fileListLoop pl 0 0 es) (ps.length / 20) pl (es.map EntryBase.length).sum with
      | ok pm => rw [hm] at h'; cases h'
      | panic => rw [hm] at h'; cases h'
      | timeout => rw [hm] at h'; cases h'
      | err w' =>
        rw [hm] at h'
        cases h'
        have hc : ∃ n, w = .counted n (es.map EntryBase.length).sum ∧ n ≠ (es.map EntryBase.length).sum := by
          have hm' := hm
          unfold MakePieceMapT at hm'
          split at hm'
          · split at hm'
            · cases hm'
              exact ⟨_, rfl, by assumption⟩
            · cases hm'
          · cases hm'
          · cases hm'
          · cases hm'
        obtain ⟨n, rfl, hne⟩ := hc
        rw [g3] at hm hne
        refine .inr (.inr (.inr (.inr (.inr (.inr ⟨info, ps, pl, ns, n, hi, hps, hpl, g1, hne, ?_, by rw [g3]; rfl⟩)))))
        intro hpos hns
        exact counted_eq hpos (fun e he => hns _ (by rw [← g3]; exact List.mem_map_of_mem he)) hml (by rw [g3]) hm

/-! ### the other direction -/

/-- the dictionary has a value of this type for the key -/
def Met (d : Dict) (key : Bytes) (k : Kind) : Prop := ∃ v, Has d key v ∧ Is k v

theorem bad_unmet {d : Dict} {key : Bytes} {k : Kind} {w : Why} (h : Bad d key k w) : ¬ Met d key k := by
  rintro ⟨v, hv, hi⟩
  unfold Has at hv
  cases h with
  | missing h => rw [h] at hv; cases hv
  | wrong u h hn => rw [h] at hv; cases hv; exact hn hi

/-- the keys and their types -/
theorem needs_key {top d : Dict} {key : Bytes} {k : Kind} (h : Needs top d key k) :
    (key, k) ∈ [(ascii "announce", Kind.str), (ascii "info", .dict), (ascii "name", .str), (ascii "piece length", .int), (ascii "pieces", .str),
      (ascii "length", .int), (ascii "path", .list)] := by
  cases h <;> simp

theorem needs_kind {top d d' : Dict} {key : Bytes} {k k' : Kind} (h : Needs top d key k) (h' : Needs top d' key k') : k = k' := by
  have all : ∀ p ∈ [(ascii "announce", Kind.str), (ascii "info", .dict), (ascii "name", .str), (ascii "piece length", .int), (ascii "pieces", .str),
      (ascii "length", .int), (ascii "path", .list)], ∀ q ∈ [(ascii "announce", Kind.str), (ascii "info", .dict), (ascii "name", .str),
      (ascii "piece length", .int), (ascii "pieces", .str), (ascii "length", .int), (ascii "path", .list)], p.1 = q.1 → p.2 = q.2 := by decide
  exact all _ (needs_key h) _ (needs_key h') rfl

/-- **C105**, the other direction: if exactly one of the things that are needed is missing or has another type, and nothing else is wrong with the files,
the torrent file is refused and the text says which key it is, and which type was found. -/
theorem C105_single (H : Bytes → Bytes) (osErr data sp wd addr : Bytes) (top d : Dict) (key : Bytes) (k : Kind) (hd : Decode data sp = .ok (.dict top))
    (hn : Needs top d key k) (hu : ¬ Met d key k) (only : ∀ d' key' k', Needs top d' key' k' → ¬ Met d' key' k' → d' = d ∧ key' = key)
    (he : ∀ v, FileEntry top v → Is .dict v)
    (hp : ∀ f vs, FileEntry top (.dict f) → Has f (ascii "path") (.list vs) → vs ≠ [] ∧ ∀ v ∈ vs, Is .str v) :
    ∃ w, FromTorrentFileT H osErr (some data) sp wd = .err w ∧
      ((Lacks d key ∧ w.text addr = missingText addr key) ∨
       ∃ v k', Has d key v ∧ Is k' v ∧ k' ≠ k ∧ w.text addr = typeText (if k = .dict then ascii "0x0" else addr) key k k') := by
  obtain ⟨b, hpar⟩ := decode_parses' hd
  have done : ∀ {d' key' k' w b'}, Parses (.dict d') b' → Needs top d' key' k' → Bad d' key' k' w →
      ((Lacks d key ∧ w.text addr = missingText addr key) ∨
       ∃ v k', Has d key v ∧ Is k' v ∧ k' ≠ k ∧ w.text addr = typeText (if k = .dict then ascii "0x0" else addr) key k k') := by
    intro d' key' k' w b' hpd hn' hb
    obtain ⟨rfl, rfl⟩ := only _ _ _ hn' (bad_unmet hb)
    obtain rfl := needs_kind hn hn'
    exact bad_text hpd hb addr
  unfold FromTorrentFileT
  simp only [decodeT_eq hd]
  rcases string_out top (ascii "announce") with ⟨an, han, h1⟩ | ⟨w', h1, hb⟩
  rotate_left
  · exact ⟨w', by simp only [h1, Out.bind], done hpar .announce hb⟩
  simp only [h1, Out.bind]
  rcases dict_out top (ascii "info") with ⟨info, hi, h1⟩ | ⟨w', h1, hb⟩
  rotate_left
  · exact ⟨w', by simp only [h1], done hpar .info hb⟩
  simp only [h1]
  obtain ⟨bi, hpi⟩ := parses_lookup hpar hi
  suffices hs : ∃ w, FromDictT info wd = .err w ∧ ((Lacks d key ∧ w.text addr = missingText addr key) ∨
       ∃ v k', Has d key v ∧ Is k' v ∧ k' ≠ k ∧ w.text addr = typeText (if k = .dict then ascii "0x0" else addr) key k k') by
    obtain ⟨w, h2, h3⟩ := hs
    exact ⟨w, by rw [h2], h3⟩
  unfold FromDictT
  rcases string_out info (ascii "name") with ⟨name, hname, h1⟩ | ⟨w', h1, hb⟩
  rotate_left
  · exact ⟨w', by simp only [h1, Out.bind], done hpi (.name info hi) hb⟩
  simp only [h1, Out.bind]
  rcases int_out info (ascii "piece length") with ⟨pl, hpl, h1⟩ | ⟨w', h1, hb⟩
  rotate_left
  · exact ⟨w', by simp only [h1], done hpi (.pieceLen info hi) hb⟩
  simp only [h1]
  rcases string_out info (ascii "pieces") with ⟨ps, hps, h1⟩ | ⟨w', h1, hb⟩
  rotate_left
  · exact ⟨w', by simp only [h1], done hpi (.pieces info hi) hb⟩
  simp only [h1]
  -- what is missing is in a file
  have hfile : ∃ f, FileEntry top (.dict f) ∧ ¬ (Met f (ascii "length") .int ∧ Met f (ascii "path") .list) := by
    cases hn with
    | announce => exact absurd ⟨_, han, .str _⟩ hu
    | info => exact absurd ⟨_, hi, .dict _⟩ hu
    | name i hi' => unfold Has at hi'; rw [hi] at hi'; cases hi'; exact absurd ⟨_, hname, .str _⟩ hu
    | pieceLen i hi' => unfold Has at hi'; rw [hi] at hi'; cases hi'; exact absurd ⟨_, hpl, .int _⟩ hu
    | pieces i hi' => unfold Has at hi'; rw [hi] at hi'; cases hi'; exact absurd ⟨_, hps, .str _⟩ hu
    | fileLen _ hf => exact ⟨d, hf, fun h => hu h.1⟩
    | filePath _ hf => exact ⟨d, hf, fun h => hu h.2⟩
  obtain ⟨f, hfe, hfm⟩ := hfile
  generalize hv : Value.dict f = v at hfe
  obtain ⟨info', fs, v, hi', hnl, hfs, hmem⟩ := hfe
  subst hv
  unfold Has at hi'
  rw [hi] at hi'
  cases hi'
  obtain ⟨bl, hpl'⟩ := parses_lookup hpi hfs
  have loop : ∀ gs : List Value, (∀ v ∈ gs, v ∈ fs) →
      (∃ es, FromBenListT gs = .ok es ∧ ∀ g, .dict g ∈ gs → Met g (ascii "length") .int ∧ Met g (ascii "path") .list) ∨
      ∃ w, FromBenListT gs = .err w ∧ ((Lacks d key ∧ w.text addr = missingText addr key) ∨
       ∃ v k', Has d key v ∧ Is k' v ∧ k' ≠ k ∧ w.text addr = typeText (if k = .dict then ascii "0x0" else addr) key k k') := by
    intro gs
    induction gs with
    | nil => exact fun _ => .inl ⟨[], rfl, by simp⟩
    | cons v gs ih =>
      intro hsub
      have hve : FileEntry top v := .mk info fs v hi hnl hfs (hsub v (by simp))
      have hdict := he v hve
      cases hdict with
      | dict g =>
        obtain ⟨bv, hpv⟩ := parses_mem hpl' (hsub (.dict g) (by simp))
        rw [FromBenListT]
        unfold benEntryT
        simp only
        rcases int_out g (ascii "length") with ⟨n, hlen, h2⟩ | ⟨w', h2, hb⟩
        rotate_left
        · exact .inr ⟨w', by simp only [h2, Out.bind], done hpv (.fileLen g hve) hb⟩
        simp only [h2, Out.bind]
        rcases list_out g (ascii "path") with ⟨l, hl, h3⟩ | ⟨w', h3, hb⟩
        rotate_left
        · exact .inr ⟨w', by simp only [h3], done hpv (.filePath g hve) hb⟩
        simp only [h3]
        obtain ⟨hne, hstr⟩ := hp g l hve hl
        rcases path_out l [] with ⟨s, h4, -, h5⟩ | ⟨u, hu', hns, -⟩
        rotate_left
        · exact absurd (hstr u hu') hns
        simp only [h4]
        rw [if_neg (h5 (.inl hne))]
        simp only
        rcases ih (fun v hv => hsub v (by simp [hv])) with ⟨es, h6, h7⟩ | ⟨w, h6, h7⟩
        · simp only [h6]
          refine .inl ⟨_, rfl, ?_⟩
          intro g' hg'
          rcases List.mem_cons.mp hg' with e | hg'
          · cases e
            exact ⟨⟨_, hlen, .int _⟩, ⟨_, hl, .list _⟩⟩
          · exact h7 g' hg'
        · exact .inr ⟨w, by rw [h6], h7⟩
  have hent : ∃ w, entriesT info name wd = .err w ∧ ((Lacks d key ∧ w.text addr = missingText addr key) ∨
       ∃ v k', Has d key v ∧ Is k' v ∧ k' ≠ k ∧ w.text addr = typeText (if k = .dict then ascii "0x0" else addr) key k k') := by
    unfold entriesT
    rcases int_out info (ascii "length") with ⟨n, hlen, h2⟩ | ⟨w', h2, hb⟩
    · exact absurd hlen (hnl n)
    · simp only [h2]
      rcases list_out info (ascii "files") with ⟨l, hl, h3⟩ | ⟨w', h3, hb⟩
      · unfold Has at hfs
        rw [hl] at hfs
        cases hfs
        rcases loop fs (fun v hv => hv) with ⟨es, -, h6⟩ | ⟨w, h6, h7⟩
        · exact absurd (h6 f hmem) hfm
        · exact ⟨w, by simp only [h3, h6, Out.bind], h7⟩
      · exact absurd ⟨_, hfs, .list _⟩ (bad_unmet hb)
  obtain ⟨w, h6, h7⟩ := hent
  exact ⟨w, by rw [h6], h7⟩

/-! ### what the texts tell -/

theorem noArgs_plain (n : Nat) (t : Bytes) (h : 37 ∉ t) (hn : t.length ≤ n) : noArgs n t = t := by
  induction t generalizing n with
  | nil => cases n <;> rfl
  | cons c t ih =>
    cases n with
    | zero => simp at hn
    | succ n =>
      rw [noArgs, if_neg (by rintro rfl; simp at h), ih n (by simp at h; exact h.2) (by simpa using hn)]

/-- **C105**: the text about a path is as it is meant to be unless there is a percent sign in it. -/
theorem C105_path (t : Bytes) (h : 37 ∉ t) : errorf (ascii "file entry contains invalid path [" ++ t ++ ascii "]") =
    ascii "file entry contains invalid path [" ++ t ++ ascii "]" := by
  refine noArgs_plain _ _ ?_ (Nat.le_refl _)
  rw [List.mem_append, List.mem_append]
  rintro ((h1 | h1) | h1)
  · exact absurd h1 (by decide)
  · exact h h1
  · exact absurd h1 (by decide)

/-- **C105**: what becomes of percent signs, which start directives.  Stated for all texts whose directives
with an index in brackets have no width or precision: a directive is replaced by a remark with its verb (an ASCII character, another character, or U+FFFD for a byte that is not
one), a doubled percent sign by one, and behind a width that is too large nothing is shown. -/
theorem C105_directives (f o : Bytes) (h : Printed f o) : errorf f = o := noArgs_printed h _ (Nat.le_refl _)

theorem spaced_eq (ts : List Bytes) : spaced ts = List.intercalate [32] ts := by
  induction ts with
  | nil => rfl
  | cons t ts ih =>
    cases ts with
    | nil => simp [spaced, List.intercalate]
    | cons u ts =>
      rw [spaced, ih]
      · simp [List.intercalate, List.intersperse]
      · simp

theorem fmtList_map (vs : List Value) : fmtList vs = vs.map fmtV := by
  induction vs with
  | nil => simp [fmtList]
  | cons v vs ih => simp [fmtList, ih]

theorem fmtEntries_map (es : List (Bytes × Value)) : fmtEntries es = es.map fun e => (e.1, fmtV e.2) := by
  induction es with
  | nil => simp [fmtEntries]
  | cons e es ih => obtain ⟨k, v⟩ := e; simp [fmtEntries, ih]

/-- **C105**: how the element of a path is shown: numbers in decimal notation, lists and dictionaries with blanks between their elements, dictionaries in
the order of their keys. -/
theorem C105_shown :
    (∀ s, fmtV (.str s) = s) ∧ (∀ i, fmtV (.int64 i) = intDec i) ∧
    (∀ vs, fmtV (.list vs) = ascii "[" ++ List.intercalate (ascii " ") (vs.map fmtV) ++ ascii "]") ∧
    (∀ es ss : Dict, ss.Perm es → (ss.map Prod.fst).Pairwise (· < ·) →
      fmtV (.dict es) = ascii "map[" ++ List.intercalate (ascii " ") (ss.map fun e => e.1 ++ ascii ":" ++ fmtV e.2) ++ ascii "]") := by
  refine ⟨fun s => by rw [fmtV], fun i => by rw [fmtV], fun vs => ?_, ?_⟩
  · rw [fmtV, spaced_eq, fmtList_map]
    rfl
  · intro es ss hp hs
    have hsort : (fmtEntries es).mergeSort keyLe = ss.map fun e => (e.1, fmtV e.2) := by
      have hs' : ((ss.map fun e => (e.1, fmtV e.2)).map Prod.fst).Pairwise (· < ·) := by rw [List.map_map]; exact hs
      have hperm : (ss.map fun e => (e.1, fmtV e.2)).Perm (fmtEntries es) := by rw [fmtEntries_map]; exact hp.map _
      rw [← sorted_of_strict _ hs']
      refine List.Perm.eq_of_pairwise (le := fun x y => keyLe x y = true) ?_
        (List.pairwise_mergeSort keyLe_trans keyLe_total _) (List.pairwise_mergeSort keyLe_trans keyLe_total _)
        ((List.mergeSort_perm _ _).trans (hperm.symm.trans (List.mergeSort_perm _ _).symm))
      intro a b ha hb h1 h2
      have hab : a.1 = b.1 := bytesLe_antisymm _ _ h1 h2
      have ha' := hperm.mem_iff.mpr (List.mem_mergeSort.mp ha)
      have hb' := List.mem_mergeSort.mp hb
      obtain ⟨k, x⟩ := a
      obtain ⟨k', y⟩ := b
      simp only at hab
      subst hab
      rw [nodup_key_unique (nodup_of_strict hs') ha' hb']
    have he : (fmtEntries es).mergeSort (fun x y => bytesLe x.1 y.1) = ss.map fun e => (e.1, fmtV e.2) := hsort
    rw [fmtV, he, spaced_eq, List.map_map]
    rfl

theorem until_bracket {a a' r r' : Bytes} (h : 93 ∉ a) (h' : 93 ∉ a') (he : a ++ 93 :: r = a' ++ 93 :: r') : a = a' := by
  have hx := congrArg (List.takeWhile (· ≠ (93 : UInt8))) he
  have hy : ∀ {a r : Bytes}, 93 ∉ a → (a ++ 93 :: r).takeWhile (· ≠ (93 : UInt8)) = a := by
    intro a r h
    rw [List.takeWhile_append_of_pos]
    · simp
    · intro x hx
      simp only [decide_not, Bool.not_eq_eq_eq_not, Bool.not_true, decide_eq_false_iff_not]
      rintro rfl
      exact h hx
  rwa [hy h, hy h'] at hx

theorem needs_plain {top d : Dict} {key : Bytes} {k : Kind} (h : Needs top d key k) : 93 ∉ key := by
  have all : ∀ p ∈ [(ascii "announce", Kind.str), (ascii "info", .dict), (ascii "name", .str), (ascii "piece length", .int), (ascii "pieces", .str),
      (ascii "length", .int), (ascii "path", .list)], 93 ∉ p.1 := by decide
  exact all _ (needs_key h)

/-- **C105**: the texts tell the keys apart, whatever the addresses and whatever the torrent files. -/
theorem C105_tells (top top' d d' : Dict) (key key' addr addr' : Bytes) (k k' : Kind) (h : Needs top d key k) (h' : Needs top' d' key' k') :
    (missingText addr key = missingText addr' key' → key = key') ∧
    (∀ g g', typeText addr key k g = typeText addr' key' k' g' → key = key') ∧
    (∀ g, missingText addr key ≠ typeText addr' key' k' g) := by
  refine ⟨?_, ?_, ?_⟩
  · intro he
    simp only [missingText, List.append_assoc] at he
    exact until_bracket (needs_plain h) (needs_plain h') (List.append_cancel_left he)
  · intro g g' he
    simp only [typeText, List.append_assoc] at he
    exact until_bracket (needs_plain h) (needs_plain h') (List.append_cancel_left he)
  · intro g he
    simp [missingText, typeText, ascii] at he

/-! ### what they do not tell -/

/-- **C105** refuted: the text says that both keys are missing, and both are there. -/
theorem C105_refuted_missing (H : Bytes → Bytes) (osErr wd addr : Bytes) :
    ∃ data top info w, Decode data [] = .ok (.dict top) ∧ Has top (ascii "info") (.dict info) ∧
      Has info (ascii "length") (.str (ascii "7")) ∧ Has info (ascii "files") (.dict []) ∧
      FromTorrentFileT H osErr (some data) [] wd = .err w ∧
      w.text addr = ascii "tracker error: missing keys 'length' and 'files', must have exactly 1" := by
  have hd : Decode (ascii "d8:announce1:a4:infod5:filesde6:length1:74:name1:n12:piece lengthi4e6:pieces0:ee") [] = .ok (.dict
      [(ascii "announce", .str (ascii "a")), (ascii "info", .dict [(ascii "files", .dict []), (ascii "length", .str (ascii "7")),
        (ascii "name", .str (ascii "n")), (ascii "piece length", .int64 4), (ascii "pieces", .str [])])]) := by decide +kernel
  refine ⟨_, _, _, .noFiles, hd, rfl, rfl, rfl, ?_, rfl⟩
  unfold FromTorrentFileT
  simp only [decodeT_eq hd]
  rfl

/-- **C105** refuted: the text does not tell which file it is about; here it is the first or the second one that has no length. -/
theorem C105_refuted_which (H : Bytes → Bytes) (osErr wd : Bytes) :
    ∃ data data' top top' f g w, Decode data [] = .ok (.dict top) ∧ Decode data' [] = .ok (.dict top') ∧ f ≠ g ∧
      (∀ v, FileEntry top v ↔ v = .dict f ∨ v = .dict [(ascii "length", .int64 1), (ascii "path", .list [.str (ascii "b")])]) ∧
      (∀ v, FileEntry top' v ↔ v = .dict [(ascii "length", .int64 1), (ascii "path", .list [.str (ascii "a")])] ∨ v = .dict g) ∧
      Lacks f (ascii "length") ∧ Lacks g (ascii "length") ∧
      FromTorrentFileT H osErr (some data) [] wd = .err w ∧ FromTorrentFileT H osErr (some data') [] wd = .err w := by
  have hd : Decode (ascii "d8:announce1:a4:infod5:filesld4:pathl1:aeed6:lengthi1e4:pathl1:beee4:name1:n12:piece lengthi4e6:pieces0:ee") [] = .ok (.dict
      [(ascii "announce", .str (ascii "a")), (ascii "info", .dict [(ascii "files", .list [.dict [(ascii "path", .list [.str (ascii "a")])],
        .dict [(ascii "length", .int64 1), (ascii "path", .list [.str (ascii "b")])]]),
        (ascii "name", .str (ascii "n")), (ascii "piece length", .int64 4), (ascii "pieces", .str [])])]) := by decide +kernel
  have hd' : Decode (ascii "d8:announce1:a4:infod5:filesld6:lengthi1e4:pathl1:aeed4:pathl1:beee4:name1:n12:piece lengthi4e6:pieces0:ee") [] = .ok (.dict
      [(ascii "announce", .str (ascii "a")), (ascii "info", .dict [(ascii "files", .list [.dict [(ascii "length", .int64 1), (ascii "path", .list [.str (ascii "a")])],
        .dict [(ascii "path", .list [.str (ascii "b")])]]),
        (ascii "name", .str (ascii "n")), (ascii "piece length", .int64 4), (ascii "pieces", .str [])])]) := by decide +kernel
  refine ⟨_, _, _, _, [(ascii "path", .list [.str (ascii "a")])], [(ascii "path", .list [.str (ascii "b")])], .missing (ascii "length"), hd, hd', ?_, ?_, ?_, ?_, ?_, ?_, ?_⟩
  · simp [ascii]
  · intro v
    constructor
    · rintro ⟨info, fs, v, hi, -, hf, hm⟩
      cases hi
      cases hf
      simpa using hm
    · intro h
      exact .mk _ _ v rfl (by intro n h; cases h) rfl (by simpa using h)
  · intro v
    constructor
    · rintro ⟨info, fs, v, hi, -, hf, hm⟩
      cases hi
      cases hf
      simpa using hm
    · intro h
      exact .mk _ _ v rfl (by intro n h; cases h) rfl (by simpa using h)
  · intro v h; cases h
  · intro v h; cases h
  · unfold FromTorrentFileT
    simp only [decodeT_eq hd]
    rfl
  · unfold FromTorrentFileT
    simp only [decodeT_eq hd']
    rfl

/-- **C105** refuted: if the value of `info` is not a dictionary, the text does not tell which dictionary has the wrong value, but that it is at 0x0. -/
theorem C105_refuted_address (H : Bytes → Bytes) (osErr wd : Bytes) :
    ∃ data w, Decode data [] = .ok (.dict [(ascii "announce", .str (ascii "a")), (ascii "info", .int64 1)]) ∧
      FromTorrentFileT H osErr (some data) [] wd = .err w ∧
      ∀ addr, w.text addr = ascii "bad type for key [info] in dict [0x0]\nrequest [dict]\n    got [int64]" := by
  have hd : Decode (ascii "d8:announce1:a4:infoi1ee") [] = .ok (.dict [(ascii "announce", .str (ascii "a")), (ascii "info", .int64 1)]) := by decide +kernel
  refine ⟨_, .badType (ascii "info") (ascii "dict") (ascii "int64") true, hd, ?_, fun addr => rfl⟩
  unfold FromTorrentFileT
  simp only [decodeT_eq hd]
  rfl

/-- **C105** refuted: the text of the torrent file is used as a format; the path `%d` is not shown. -/
theorem C105_refuted_format (H : Bytes → Bytes) (osErr wd addr : Bytes) :
    ∃ data top f w, Decode data [] = .ok (.dict top) ∧ FileEntry top (.dict f) ∧ Has f (ascii "path") (.list [.list [.str (ascii "%d")]]) ∧
      FromTorrentFileT H osErr (some data) [] wd = .err w ∧
      w.text addr = ascii "file entry contains invalid path [[%!d(MISSING)]]" := by
  have hd : Decode (ascii "d8:announce1:a4:infod5:filesld6:lengthi1e4:pathll2:%deeee4:name1:n12:piece lengthi4e6:pieces0:ee") [] = .ok (.dict
      [(ascii "announce", .str (ascii "a")), (ascii "info", .dict [(ascii "files", .list [.dict [(ascii "length", .int64 1), (ascii "path", .list [.list [.str (ascii "%d")]])]]),
        (ascii "name", .str (ascii "n")), (ascii "piece length", .int64 4), (ascii "pieces", .str [])])]) := by decide +kernel
  refine ⟨_, _, [(ascii "length", .int64 1), (ascii "path", .list [.list [.str (ascii "%d")]])], .badPath (.list [.str (ascii "%d")]), hd,
    .mk _ _ _ rfl (by intro n h; cases h) rfl (by simp), rfl, ?_, ?_⟩
  · unfold FromTorrentFileT
    simp only [decodeT_eq hd]
    rfl
  · have e : fmtV (.list [.str (ascii "%d")]) = ascii "[%d]" := by simp [fmtV, fmtList, spaced, ascii]
    rw [Why.text, e]
    decide +kernel

/-! ### examples -/

/-- the hypothesis of `C105_directives` -/
example : Printed (ascii "a%-8.3dc") (ascii "a%!d(MISSING)c") :=
  .char _ _ _ (by decide +kernel) (.verb (ascii "-8.3") [] 100 (ascii "c") (ascii "c")
    (.mk (ascii "-") (ascii "8") [] (ascii ".3") [] (by decide +kernel) (.number _ (by unfold Number; decide +kernel)) (.number [] (ascii "3") (by decide +kernel) (by unfold Number; decide +kernel)))
    (by unfold Verb; decide +kernel) (.char _ _ _ (by decide +kernel) .nil))
example : Printed (ascii "%*d%") (ascii "%!(BADWIDTH)%!d(MISSING)%!(NOVERB)") :=
  .verb (ascii "*") (ascii "%!(BADWIDTH)") 100 (ascii "%") (ascii "%!(NOVERB)") (.mk [] _ _ [] [] (by decide +kernel) .star .none) (by unfold Verb; decide +kernel)
    (.noVerb [] [] (.mk [] [] [] [] [] (by decide +kernel) (.number _ (by unfold Number; decide +kernel)) .none))
example : Printed (ascii "%99999999d rest") (ascii "%!(NOVERB)") := .tooWide [] (ascii "9999999") 57 (ascii "d rest") (by decide +kernel) (by decide +kernel) (by decide +kernel) (by decide +kernel) (by decide +kernel) (by decide +kernel)
example : Printed ([37] ++ [] ++ utf8 0xE9 ++ ascii "!") (ascii "%!" ++ [195, 169] ++ ascii "(MISSING)!") :=
  .rune [] [] 0xE9 (ascii "!") (ascii "!") (.mk [] [] [] [] [] (by decide +kernel) (.number _ (by unfold Number; decide +kernel)) .none) (.inl (by decide)) (by decide)
    (.char _ _ _ (by decide +kernel) .nil)
example : Printed (ascii "%[1]d") (ascii "%!d(BADINDEX)") := .index [] (ascii "1") 100 [] [] (by decide +kernel) (by decide +kernel) (by unfold Verb; decide +kernel) .nil
example : Printed (ascii "%[1][2") (ascii "%![(BADINDEX)2") := .bracket [] (ascii "1") (ascii "2") (ascii "2") (by decide +kernel) (by unfold Index; decide +kernel)
  (.char _ _ _ (by decide +kernel) .nil)
example : Printed (ascii "%[x][2]d") (ascii "%!d(BADINDEX)") := .indices [] (ascii "x") (ascii "2") 100 [] [] (by decide +kernel) (by decide +kernel)
  (by unfold Index; decide +kernel) (by decide +kernel) (by unfold Verb; decide +kernel) .nil
example : Printed (ascii "%[d") (ascii "%!d(BADINDEX)") := .unclosed [] 100 [] [] (by decide +kernel) (by decide +kernel) (by unfold Verb; decide +kernel) (by decide +kernel) .nil

/-- directives without arguments -/
example : errorf (ascii "a%db") = ascii "a%!d(MISSING)b" := by decide +kernel
example : errorf (ascii "100%") = ascii "100%!(NOVERB)" := by decide +kernel
example : errorf (ascii "[100%]") = ascii "[100%!](MISSING)" := by decide +kernel
example : errorf (ascii "50%% %+-#05.3f.") = ascii "50% %!f(MISSING)." := by decide +kernel
example : errorf (ascii "%[1]d %[x]d %[]%[") = ascii "%!d(BADINDEX) %!d(BADINDEX) %[" := by decide +kernel
example : errorf (ascii "%*d %.*d %.d %[2]*d") = ascii "%!(BADWIDTH)%!d(MISSING) %!(BADPREC)%!d(MISSING) %!d(MISSING) %!(BADWIDTH)%!d(BADINDEX)" := by decide +kernel
example : errorf (ascii "%99999999d rest") = ascii "%!(NOVERB)" := by decide +kernel
example : errorf [37, 195, 169, 33] = ascii "%!" ++ [195, 169] ++ ascii "(MISSING)!" := by decide +kernel
example : errorf [37, 195, 33] = ascii "%!" ++ [239, 191, 189] ++ ascii "(MISSING)!" := by decide +kernel

/-- one hash for two files of four bytes -/
def shortFile : Bytes :=
  ascii "d8:announce1:a4:infod5:filesld6:lengthi4e4:pathl1:aeed6:lengthi4e4:pathl1:beee4:name1:n12:piece lengthi4e6:pieces20:aaaaaaaaaaaaaaaaaaaaee"

def shortInfo : Dict :=
  [(ascii "files", .list [.dict [(ascii "length", .int64 4), (ascii "path", .list [.str (ascii "a")])], .dict [(ascii "length", .int64 4), (ascii "path", .list [.str (ascii "b")])]]),
   (ascii "name", .str (ascii "n")), (ascii "piece length", .int64 4), (ascii "pieces", .str (ascii "aaaaaaaaaaaaaaaaaaaa"))]

theorem short_decodes : Decode shortFile [] = .ok (.dict [(ascii "announce", .str (ascii "a")), (ascii "info", .dict shortInfo)]) := by decide +kernel

/-- the hypotheses of `C105_says`, with the last of the texts -/
example (H : Bytes → Bytes) (osErr : Bytes) : FromTorrentFileT H osErr (some shortFile) [] (ascii "/w") = .err (.counted 4 8) := by
  unfold FromTorrentFileT
  simp only [decodeT_eq short_decodes]
  rfl

/-- a torrent file without `announce` meets the hypotheses of `C105_single` -/
example (H : Bytes → Bytes) (osErr addr : Bytes) : ∃ w, FromTorrentFileT H osErr (some (ascii "d4:infod6:lengthi4e4:name1:n12:piece lengthi4e6:pieces20:aaaaaaaaaaaaaaaaaaaaee")) []
    (ascii "/w") = .err w ∧ w.text addr = missingText addr (ascii "announce") := by
  have hd : Decode (ascii "d4:infod6:lengthi4e4:name1:n12:piece lengthi4e6:pieces20:aaaaaaaaaaaaaaaaaaaaee") [] = .ok (.dict [(ascii "info", .dict
    [(ascii "length", .int64 4), (ascii "name", .str (ascii "n")), (ascii "piece length", .int64 4), (ascii "pieces", .str (ascii "aaaaaaaaaaaaaaaaaaaa"))])]) := by
    decide +kernel
  have nofile : ∀ v, ¬ FileEntry [(ascii "info", .dict
    [(ascii "length", .int64 4), (ascii "name", .str (ascii "n")), (ascii "piece length", .int64 4), (ascii "pieces", .str (ascii "aaaaaaaaaaaaaaaaaaaa"))])] v := by
    rintro v ⟨info, fs, v, hi, hn, -, -⟩
    cases hi
    exact hn 4 rfl
  obtain ⟨w, h1, h2⟩ := C105_single H osErr _ [] (ascii "/w") addr _ _ (ascii "announce") .str hd .announce (by rintro ⟨v, h, -⟩; cases h) (by
    intro d' key' k' hn hu
    cases hn with
    | announce => exact ⟨rfl, rfl⟩
    | info => exact absurd ⟨_, rfl, .dict _⟩ hu
    | name i hi => cases hi; exact absurd ⟨_, rfl, .str _⟩ hu
    | pieceLen i hi => cases hi; exact absurd ⟨_, rfl, .int _⟩ hu
    | pieces i hi => cases hi; exact absurd ⟨_, rfl, .str _⟩ hu
    | fileLen f hf => exact absurd hf (nofile _)
    | filePath f hf => exact absurd hf (nofile _))
    (fun v hv => absurd hv (nofile v)) (fun f vs hf => absurd hf (nofile _))
  rcases h2 with ⟨-, h2⟩ | ⟨v, k', h2, -⟩
  · exact ⟨w, h1, h2⟩
  · cases h2

end Verif.LoadText
