import Verif.Props.Paths
import Verif.Props.Bencode
/-
Property C35: loading hostile torrent files (/repo/src/torrent/torrent.go:70-111).
-/
set_option autoImplicit false

namespace Verif.Torrent
open Verif.Files Verif.Bencode Verif.Bencode.Spec Verif.Path Verif.Info Verif.Layout

theorem getInt_cases (d : Dict) (k : Bytes) :
    (∃ i, intAt d k = some i ∧ Dict.getInt d k = .ok i) ∨ (intAt d k = none ∧ ∃ e, Dict.getInt d k = .err e) := by
  unfold intAt Dict.getInt Dict.get
  cases d.lookup k with
  | none => simp
  | some v => cases v <;> simp

theorem getString_cases (d : Dict) (k : Bytes) :
    (∃ i, strAt d k = some i ∧ Dict.getString d k = .ok i) ∨ (strAt d k = none ∧ ∃ e, Dict.getString d k = .err e) := by
  unfold strAt Dict.getString Dict.get
  cases d.lookup k with
  | none => simp
  | some v => cases v <;> simp

theorem getList_cases (d : Dict) (k : Bytes) :
    (∃ i, listAt d k = some i ∧ Dict.getList d k = .ok i) ∨ (listAt d k = none ∧ ∃ e, Dict.getList d k = .err e) := by
  unfold listAt Dict.getList Dict.get
  cases d.lookup k with
  | none => simp
  | some v => cases v <;> simp

theorem getDict_cases (d : Dict) (k : Bytes) :
    (∃ i, dictAt d k = some i ∧ Dict.getDict d k = .ok i) ∨ (dictAt d k = none ∧ ∃ e, Dict.getDict d k = .err e) := by
  unfold dictAt Dict.getDict Dict.get
  cases d.lookup k with
  | none => simp
  | some v => cases v <;> simp

theorem pathLoop_cases (vs : List Value) (acc : Bytes) :
    (∃ cs : List Bytes, vs = cs.map Value.str ∧ pathLoop vs acc = .ok (acc ++ (cs.map (· ++ [47])).flatten)) ∨
    ((¬ ∃ cs : List Bytes, vs = cs.map Value.str) ∧ pathLoop vs acc = .err .other) := by
  induction vs generalizing acc with
  | nil => exact .inl ⟨[], rfl, by simp [pathLoop]⟩
  | cons v vs ih =>
    by_cases hv : ∃ s, v = .str s
    · obtain ⟨s, rfl⟩ := hv
      rw [pathLoop]
      rcases ih (acc ++ s ++ [47]) with ⟨cs, rfl, h⟩ | ⟨h1, h2⟩
      · exact .inl ⟨s :: cs, rfl, by rw [h]; simp⟩
      · refine .inr ⟨?_, h2⟩
        rintro ⟨cs, hcs⟩
        cases cs with
        | nil => cases hcs
        | cons c cs => exact h1 ⟨cs, (List.cons.inj hcs).2⟩
    · refine .inr ⟨?_, ?_⟩
      · rintro ⟨cs, hcs⟩
        cases cs with
        | nil => cases hcs
        | cons c cs => exact hv ⟨c, (List.cons.inj hcs).1⟩
      · cases v <;> first | rfl | exact absurd ⟨_, rfl⟩ hv

/-- one file entry: accepted, a panic or an error -/
theorem benEntry_cases (v : Value) :
    (∃ f, FileOf v f ∧ f.2 ≠ [] ∧ ∃ e, benEntry v = .ok e ∧ e.length = f.1) ∨
    (∃ n, FileOf v (n, []) ∧ benEntry v = .panic) ∨ ((¬ ∃ f, FileOf v f) ∧ ∃ e, benEntry v = .err e) := by
  by_cases hv : ∃ d, v = .dict d
  · obtain ⟨d, rfl⟩ := hv
    unfold benEntry
    simp only
    rcases getInt_cases d (ascii "length") with ⟨n, h1, h2⟩ | ⟨h1, e, h2⟩
    · rcases getList_cases d (ascii "path") with ⟨vs, h3, h4⟩ | ⟨h3, e, h4⟩
      · rw [h2, h4, Res.ok_bind, Res.ok_bind]
        rcases pathLoop_cases vs [] with ⟨cs, rfl, h⟩ | ⟨h, h'⟩
        · rw [h, Res.ok_bind]
          cases cs with
          | nil => exact .inr (.inl ⟨n, ⟨d, rfl, h1, h3⟩, by simp⟩)
          | cons c cs =>
            refine .inl ⟨(n, c :: cs), ⟨d, rfl, h1, h3⟩, by simp, ?_⟩
            rw [if_neg (by simp)]
            exact ⟨_, rfl, rfl⟩
        · refine .inr (.inr ⟨?_, .other, by rw [h']; rfl⟩)
          rintro ⟨f, d', hd, -, hp⟩
          cases hd
          rw [h3] at hp
          exact h ⟨f.2, Option.some.inj hp⟩
      · refine .inr (.inr ⟨?_, e, by rw [h2, h4]; rfl⟩)
        rintro ⟨f, d', hd, -, hp⟩
        cases hd
        rw [h3] at hp
        cases hp
    · refine .inr (.inr ⟨?_, e, by rw [h2]; rfl⟩)
      rintro ⟨f, d', hd, hp, -⟩
      cases hd
      rw [h1] at hp
      cases hp
  · refine .inr (.inr ⟨?_, ?_⟩)
    · rintro ⟨f, d, hd, -⟩
      exact hv ⟨d, hd⟩
    · cases v <;> first | exact ⟨_, rfl⟩ | exact absurd ⟨_, rfl⟩ hv

theorem fileOf_unique {v : Value} {f g : Int × List Bytes} (h : FileOf v f) (h' : FileOf v g) : f = g := by
  obtain ⟨d, rfl, h1, h2⟩ := h
  obtain ⟨d', hd, h1', h2'⟩ := h'
  cases hd
  rw [h1] at h1'
  rw [h2] at h2'
  obtain ⟨a, b⟩ := f
  obtain ⟨a', b'⟩ := g
  simp only [Option.some.injEq] at h1' h2'
  rw [List.map_inj_right (fun x y h => Value.str.inj h)] at h2'
  rw [h1', h2']

theorem emptyPath_cons {v : Value} {vs : List Value} {f : Int × List Bytes} (hf : FileOf v f) (hne : f.2 ≠ []) :
    EmptyPath (v :: vs) ↔ EmptyPath vs := by
  constructor
  · rintro ⟨pre, w, post, ns, n, he, hp, hw⟩
    cases pre with
    | nil =>
      rw [List.nil_append] at he
      obtain ⟨rfl, rfl⟩ := List.cons.inj he
      exact absurd (by rw [fileOf_unique hf hw]) hne
    | cons x pre =>
      rw [List.cons_append] at he
      obtain ⟨rfl, rfl⟩ := List.cons.inj he
      cases hp with
      | cons _ _ g ns _ _ hp => exact ⟨pre, w, post, ns, n, rfl, hp, hw⟩
  · rintro ⟨pre, w, post, ns, n, rfl, hp, hw⟩
    exact ⟨v :: pre, w, post, f.1 :: ns, n, rfl, .cons _ _ _ _ hf hne hp, hw⟩

theorem filesOf_not_emptyPath {vs : List Value} {ns : List Int} (h : FilesOf vs ns) : ¬ EmptyPath vs := by
  induction h with
  | nil =>
    rintro ⟨pre, v, post, ns, n, h, -⟩
    cases pre <;> cases h
  | cons v vs f ns hf hne _ ih => rw [emptyPath_cons hf hne]; exact ih

theorem fromBenList_cases (vs : List Value) :
    (∃ ns es, FilesOf vs ns ∧ FromBenList vs = .ok es ∧ es.map EntryBase.length = ns) ∨
    (EmptyPath vs ∧ FromBenList vs = .panic) ∨
    ((¬ ∃ ns, FilesOf vs ns) ∧ ¬ EmptyPath vs ∧ ∃ e, FromBenList vs = .err e) := by
  induction vs with
  | nil => exact .inl ⟨[], [], .nil, rfl, rfl⟩
  | cons v vs ih =>
    rw [FromBenList]
    rcases benEntry_cases v with ⟨f, hf, hne, e, he, hl⟩ | ⟨n, hf, he⟩ | ⟨hf, e, he⟩
    · rw [he, Res.ok_bind]
      rcases ih with ⟨ns, es, h1, h2, h3⟩ | ⟨h1, h2⟩ | ⟨h1, h2, er, h3⟩
      · rw [h2]
        exact .inl ⟨f.1 :: ns, e :: es, .cons _ _ _ _ hf hne h1, rfl, by rw [List.map_cons, hl, h3]⟩
      · rw [h2]
        exact .inr (.inl ⟨(emptyPath_cons hf hne).mpr h1, rfl⟩)
      · rw [h3]
        refine .inr (.inr ⟨?_, fun h => h2 ((emptyPath_cons hf hne).mp h), er, rfl⟩)
        rintro ⟨ns, h⟩
        cases h with
        | cons _ _ _ ns _ _ h => exact h1 ⟨ns, h⟩
    · rw [he]
      exact .inr (.inl ⟨⟨[], v, vs, [], n, rfl, .nil, hf⟩, rfl⟩)
    · rw [he]
      refine .inr (.inr ⟨?_, ?_, e, rfl⟩)
      · rintro ⟨ns, h⟩
        cases h with
        | cons _ _ g _ h _ _ => exact hf ⟨g, h⟩
      · rintro ⟨pre, w, post, ns, n, h, hp, hw⟩
        cases pre with
        | nil =>
          rw [List.nil_append] at h
          obtain ⟨rfl, rfl⟩ := List.cons.inj h
          exact hf ⟨_, hw⟩
        | cons x pre =>
          rw [List.cons_append] at h
          obtain ⟨rfl, rfl⟩ := List.cons.inj h
          cases hp with
          | cons _ _ g _ h _ _ => exact hf ⟨g, h⟩

theorem entriesOf_cases (info : Dict) (name wd : Bytes) :
    (∃ ns es, LengthsOf info ns ∧ entriesOf info name wd = .ok es ∧ es.map EntryBase.length = ns) ∨
    ((intAt info (ascii "length") = none ∧ ∃ vs, listAt info (ascii "files") = some vs ∧ EmptyPath vs) ∧
      entriesOf info name wd = .panic) ∨
    ((¬ ∃ ns, LengthsOf info ns) ∧ (¬ (intAt info (ascii "length") = none ∧ ∃ vs, listAt info (ascii "files") = some vs ∧ EmptyPath vs)) ∧
      ∃ e, entriesOf info name wd = .err e) := by
  unfold entriesOf
  rcases getInt_cases info (ascii "length") with ⟨n, h1, h2⟩ | ⟨h1, e, h2⟩
  · rw [h2]
    exact .inl ⟨[n], _, .inl ⟨n, h1, rfl⟩, rfl, rfl⟩
  · rw [h2]
    simp only
    rcases getList_cases info (ascii "files") with ⟨vs, h3, h4⟩ | ⟨h3, e', h4⟩
    · rw [h4]
      simp only
      rcases fromBenList_cases vs with ⟨ns, es, g1, g2, g3⟩ | ⟨g1, g2⟩ | ⟨g1, g2, er, g3⟩
      · rw [g2, Res.ok_bind]
        refine .inl ⟨ns, _, .inr ⟨h1, vs, h3, g1⟩, rfl, ?_⟩
        rw [List.map_map, ← g3]; rfl
      · rw [g2]
        exact .inr (.inl ⟨⟨h1, vs, h3, g1⟩, rfl⟩)
      · rw [g3]
        refine .inr (.inr ⟨?_, ?_, er, rfl⟩)
        · rintro ⟨ns, ⟨n, hn, -⟩ | ⟨-, ws, hw, hf⟩⟩
          · rw [h1] at hn; cases hn
          · rw [h3] at hw; cases hw; exact g1 ⟨ns, hf⟩
        · rintro ⟨-, ws, hw, hf⟩
          rw [h3] at hw; cases hw; exact g2 hf
    · rw [h4]
      refine .inr (.inr ⟨?_, ?_, .metadata, rfl⟩)
      · rintro ⟨ns, ⟨n, hn, -⟩ | ⟨-, ws, hw, hf⟩⟩
        · rw [h1] at hn; cases hn
        · rw [h3] at hw; cases hw
      · rintro ⟨-, ws, hw, hf⟩
        rw [h3] at hw; cases hw

theorem filesOf_unique {vs : List Value} {ns ms : List Int} (h : FilesOf vs ns) (h' : FilesOf vs ms) : ns = ms := by
  induction h generalizing ms with
  | nil => cases h'; rfl
  | cons v vs f ns hf _ _ ih =>
    cases h' with
    | cons _ _ g ms hg _ h' => rw [fileOf_unique hf hg, ih h']

theorem lengthsOf_unique {info : Dict} {ns ms : List Int} (h : LengthsOf info ns) (h' : LengthsOf info ms) : ns = ms := by
  rcases h with ⟨n, h1, rfl⟩ | ⟨h1, vs, h2, h3⟩ <;> rcases h' with ⟨n', h1', rfl⟩ | ⟨h1', vs', h2', h3'⟩
  · rw [h1] at h1'; cases h1'; rfl
  · rw [h1] at h1'; cases h1'
  · rw [h1] at h1'; cases h1'
  · rw [h2] at h2'; cases h2'; exact filesOf_unique h3 h3'

theorem pieceMapInner_ne_timeout (f fidx : Nat) (fe : Entry) (pl : Int) (st : PMState) : pieceMapInner f fidx fe pl st ≠ .timeout := by
  induction f generalizing st with
  | zero => simp [pieceMapInner]
  | succ f ih =>
    rw [pieceMapInner]
    split
    · split
      · simp
      · split
        · simp
        · split
          · exact ih _
          · simp
    · simp

theorem pieceMapLoop_ne_timeout (n pl : Int) (fidx : Nat) (fl : List Entry) (st : PMState) : pieceMapLoop n pl fidx fl st ≠ .timeout := by
  induction fl generalizing fidx st with
  | nil => simp [pieceMapLoop]
  | cons fe fl ih =>
    rw [pieceMapLoop]
    split
    · simp
    · cases h : pieceMapFile fidx fe pl st with
      | ok s => exact ih _ _
      | err e => simp [Bind.bind, Res.bind]
      | panic => simp [Bind.bind, Res.bind]
      | timeout => exact absurd h (pieceMapInner_ne_timeout _ _ _ _ _)

theorem newTorInfo_ne_timeout (name : Bytes) (pl : Int) (hashes : Bytes) (files : List EntryBase) :
    NewTorInfo name pl hashes files ≠ .timeout := by
  unfold NewTorInfo MakeFileList MakePieceMap
  split
  · simp
  · split
    · simp [Bind.bind, Res.bind]
    · rw [Res.ok_bind]
      cases h : pieceMapLoop (hashes.length / 20 : Nat) pl 0 (fileListLoop pl 0 0 files) ⟨List.replicate (hashes.length / 20) [], 0, pl, 0⟩ with
      | ok s =>
        rw [Res.ok_bind]
        split
        · simp [Bind.bind, Res.bind]
        · simp [Bind.bind, Res.bind]
      | err e => simp [Bind.bind, Res.bind]
      | panic => simp [Bind.bind, Res.bind]
      | timeout => exact absurd h (pieceMapLoop_ne_timeout _ _ _ _ _)

/-- the file decodes to a dictionary with an announce string and an info dictionary with name, piece length and pieces -/
def HeaderOk (data sp : Bytes) (info : Dict) (pl : Int) (pieces : Bytes) : Prop :=
  ∃ top, Decode data sp = .ok (.dict top) ∧ (strAt top (ascii "announce")).isSome ∧ dictAt top (ascii "info") = some info ∧
    (strAt info (ascii "name")).isSome ∧ intAt info (ascii "piece length") = some pl ∧ strAt info (ascii "pieces") = some pieces

theorem headerOk_unique {data sp : Bytes} {info info' : Dict} {pl pl' : Int} {pieces pieces' : Bytes}
    (h : HeaderOk data sp info pl pieces) (h' : HeaderOk data sp info' pl' pieces') : info = info' ∧ pl = pl' ∧ pieces = pieces' := by
  obtain ⟨top, h1, h2, h3, h4, h5, h6⟩ := h
  obtain ⟨top', h1', h2', h3', h4', h5', h6'⟩ := h'
  rw [h1] at h1'
  cases h1'
  rw [h3] at h3'
  cases h3'
  rw [h5] at h5'
  cases h5'
  rw [h6] at h6'
  cases h6'
  exact ⟨rfl, rfl, rfl⟩

/-- what FromTorrentFile does with a file: an error before the list of files is looked at, or one of the outcomes of
`entriesOf` and `NewTorInfo` -/
theorem fromTorrentFile_cases (H : Bytes → Bytes) (data sp wd : Bytes) :
    ((¬ ∃ info pl pieces, HeaderOk data sp info pl pieces) ∧ ∃ e, FromTorrentFile H (some data) sp wd = .err e) ∨
    ∃ info pl pieces name, HeaderOk data sp info pl pieces ∧
      ((∃ e, FromTorrentFile H (some data) sp wd = .err e ∧ entriesOf info name wd = .err e) ∨
       (FromTorrentFile H (some data) sp wd = .panic ∧ entriesOf info name wd = .panic) ∨
       ∃ es, entriesOf info name wd = .ok es ∧
        ((∃ ti t, NewTorInfo name pl pieces es = .ok ti ∧ FromTorrentFile H (some data) sp wd = .ok t) ∨
         (∃ e, NewTorInfo name pl pieces es = .err e ∧ FromTorrentFile H (some data) sp wd = .err e) ∨
         (NewTorInfo name pl pieces es = .panic ∧ FromTorrentFile H (some data) sp wd = .panic))) := by
  unfold FromTorrentFile
  rcases (C05_decode_total data sp).1 with ⟨v, hv⟩ | ⟨e, he⟩
  · simp only [hv, Res.ok_bind]
    by_cases hd : ∃ top, v = .dict top
    · obtain ⟨top, rfl⟩ := hd
      simp only
      rcases getString_cases top (ascii "announce") with ⟨an, a1, a2⟩ | ⟨a1, e, a2⟩
      · rw [a2, Res.ok_bind]
        rcases getDict_cases top (ascii "info") with ⟨info, b1, b2⟩ | ⟨b1, e, b2⟩
        · rw [b2, Res.ok_bind]
          unfold FromDict
          rcases getString_cases info (ascii "name") with ⟨name, c1, c2⟩ | ⟨c1, e, c2⟩
          · rw [c2, Res.ok_bind]
            rcases getInt_cases info (ascii "piece length") with ⟨pl, d1, d2⟩ | ⟨d1, e, d2⟩
            · rw [d2, Res.ok_bind]
              rcases getString_cases info (ascii "pieces") with ⟨pieces, e1, e2⟩ | ⟨e1, e, e2⟩
              · rw [e2, Res.ok_bind]
                refine .inr ⟨info, pl, pieces, name, ⟨top, hv, by rw [a1]; rfl, b1, by rw [c1]; rfl, d1, e1⟩, ?_⟩
                rcases entriesOf_cases info name wd with ⟨ns, es, -, g, -⟩ | ⟨-, g⟩ | ⟨-, -, e, g⟩
                · rw [g, Res.ok_bind]
                  refine .inr (.inr ⟨es, rfl, ?_⟩)
                  cases hn : NewTorInfo name pl pieces es with
                  | ok ti => exact .inl ⟨ti, _, rfl, rfl⟩
                  | err e => exact .inr (.inl ⟨e, rfl, rfl⟩)
                  | panic => exact .inr (.inr ⟨rfl, rfl⟩)
                  | timeout => exact absurd hn (newTorInfo_ne_timeout _ _ _ _)
                · rw [g]; exact .inr (.inl ⟨rfl, rfl⟩)
                · rw [g]; exact .inl ⟨e, rfl, rfl⟩
              · refine .inl ⟨?_, e, by rw [e2]; rfl⟩
                rintro ⟨info', pl', ps', top', q1, q2, q3, q4, q5, q6⟩
                rw [hv] at q1; cases q1; rw [b1] at q3; cases q3; rw [e1] at q6; cases q6
            · refine .inl ⟨?_, e, by rw [d2]; rfl⟩
              rintro ⟨info', pl', ps', top', q1, q2, q3, q4, q5, q6⟩
              rw [hv] at q1; cases q1; rw [b1] at q3; cases q3; rw [d1] at q5; cases q5
          · refine .inl ⟨?_, e, by rw [c2]; rfl⟩
            rintro ⟨info', pl', ps', top', q1, q2, q3, q4, q5, q6⟩
            rw [hv] at q1; cases q1; rw [b1] at q3; cases q3; rw [c1] at q4; cases q4
        · refine .inl ⟨?_, e, by rw [b2]; rfl⟩
          rintro ⟨info', pl', ps', top', q1, q2, q3, q4, q5, q6⟩
          rw [hv] at q1; cases q1; rw [b1] at q3; cases q3
      · refine .inl ⟨?_, e, by rw [a2]; rfl⟩
        rintro ⟨info', pl', ps', top', q1, q2, q3, q4, q5, q6⟩
        rw [hv] at q1; cases q1; rw [a1] at q2; cases q2
    · refine .inl ⟨?_, .metadata, ?_⟩
      · rintro ⟨info', pl', ps', top', q1, q2, q3, q4, q5, q6⟩
        rw [hv] at q1
        exact hd ⟨top', Res.ok.inj q1⟩
      · cases v <;> first | rfl | exact absurd ⟨_, rfl⟩ hd
  · refine .inl ⟨?_, e, by simp only [he]; rfl⟩
    rintro ⟨info', pl', ps', top', q1, q2, q3, q4, q5, q6⟩
    rw [he] at q1; cases q1

/-- **C35**, termination: loading always ends, with a torrent, an error or a panic. -/
theorem C35_terminates (H : Bytes → Bytes) (fdata : Option Bytes) (sp wd : Bytes) : FromTorrentFile H fdata sp wd ≠ .timeout := by
  cases fdata with
  | none => simp [FromTorrentFile]
  | some data =>
    rcases fromTorrentFile_cases H data sp wd with ⟨-, e, h⟩ | ⟨info, pl, pieces, name, -, ⟨e, h, -⟩ | ⟨h, -⟩ |
      ⟨es, -, ⟨ti, t, -, h⟩ | ⟨e, -, h⟩ | ⟨-, h⟩⟩⟩ <;> rw [h] <;> simp

/-- **C35**, exact characterisation for files whose piece length is positive and whose file lengths are not negative: loading
panics exactly if there is a file with an empty path (before any malformed one), or the recorded hashes are whole and end strictly
inside of a file.
Missing from the property: that this never happens; piece length zero and negative numbers (`C35_refuted_…`). -/
theorem C35_panic_iff_partial (H : Bytes → Bytes) (data sp wd : Bytes)
    (hpl : ∀ info pl pieces, HeaderOk data sp info pl pieces → 0 < pl)
    (hns : ∀ info pl pieces ns, HeaderOk data sp info pl pieces → LengthsOf info ns → ∀ n ∈ ns, 0 ≤ n) :
    FromTorrentFile H (some data) sp wd = .panic ↔
      ∃ info pl pieces, HeaderOk data sp info pl pieces ∧
        ((intAt info (ascii "length") = none ∧ ∃ vs, listAt info (ascii "files") = some vs ∧ EmptyPath vs) ∨
         (20 ∣ pieces.length ∧ ∃ ns k, LengthsOf info ns ∧
            startPos (ns.map Int.toNat) k < pieces.length / 20 * pl.toNat ∧
            pieces.length / 20 * pl.toNat < startPos (ns.map Int.toNat) (k + 1))) := by
  rcases fromTorrentFile_cases H data sp wd with ⟨h1, e, h2⟩ | ⟨info, pl, pieces, name, hh, hcase⟩
  · rw [h2]
    constructor
    · intro h; cases h
    · rintro ⟨i, p, ps, h, -⟩; exact absurd ⟨i, p, ps, h⟩ h1
  · have hplpos := hpl _ _ _ hh
    have key : ∀ es : List EntryBase, entriesOf info name wd = .ok es → ∃ ns, LengthsOf info ns ∧ es.map EntryBase.length = ns ∧
        (NewTorInfo name pl pieces es = .panic ↔ 20 ∣ pieces.length ∧ ∃ k,
            startPos (ns.map Int.toNat) k < pieces.length / 20 * pl.toNat ∧
            pieces.length / 20 * pl.toNat < startPos (ns.map Int.toNat) (k + 1)) := by
      intro es hes
      rcases entriesOf_cases info name wd with ⟨ns, es', g1, g2, g3⟩ | ⟨-, g⟩ | ⟨-, -, e, g⟩
      · rw [hes] at g2
        cases g2
        refine ⟨ns, g1, g3, ?_⟩
        have hc := C24_panic_iff_partial name pl.toNat (by omega) pieces es (by
          intro f hf
          exact hns _ _ _ ns hh g1 f.length (by rw [← g3]; exact List.mem_map_of_mem hf))
        have e1 : ((pl.toNat : Nat) : Int) = pl := Int.toNat_of_nonneg (by omega)
        rw [e1] at hc
        rw [hc]
        have e2 : lens es = ns.map Int.toNat := by rw [← g3, List.map_map]; rfl
        rw [e2]
      · rw [hes] at g; cases g
      · rw [hes] at g; cases g
    have excl : ∀ ns, LengthsOf info ns →
        ¬ (intAt info (ascii "length") = none ∧ ∃ vs, listAt info (ascii "files") = some vs ∧ EmptyPath vs) := by
      rintro ns (⟨n, hn, -⟩ | ⟨-, ws, hw, hf⟩) ⟨hb1, vs, hb2, hb3⟩
      · rw [hb1] at hn; cases hn
      · rw [hb2] at hw; cases hw
        exact filesOf_not_emptyPath hf hb3
    have rhs : (∃ info pl pieces, HeaderOk data sp info pl pieces ∧
        ((intAt info (ascii "length") = none ∧ ∃ vs, listAt info (ascii "files") = some vs ∧ EmptyPath vs) ∨
         (20 ∣ pieces.length ∧ ∃ ns k, LengthsOf info ns ∧
            startPos (ns.map Int.toNat) k < pieces.length / 20 * pl.toNat ∧
            pieces.length / 20 * pl.toNat < startPos (ns.map Int.toNat) (k + 1)))) ↔
        ((intAt info (ascii "length") = none ∧ ∃ vs, listAt info (ascii "files") = some vs ∧ EmptyPath vs) ∨
         (20 ∣ pieces.length ∧ ∃ ns k, LengthsOf info ns ∧
            startPos (ns.map Int.toNat) k < pieces.length / 20 * pl.toNat ∧
            pieces.length / 20 * pl.toNat < startPos (ns.map Int.toNat) (k + 1))) := by
      constructor
      · rintro ⟨i, p, ps, h, hr⟩
        obtain ⟨rfl, rfl, rfl⟩ := headerOk_unique h hh
        exact hr
      · exact fun h => ⟨_, _, _, hh, h⟩
    rw [rhs]
    have ents := entriesOf_cases info name wd
    rcases hcase with ⟨e, h, g⟩ | ⟨h, g⟩ | ⟨es, g, hcase⟩
    · rw [h]
      rcases ents with ⟨_, _, _, g', _⟩ | ⟨_, g'⟩ | ⟨g1, g2, -⟩
      · rw [g] at g'; cases g'
      · rw [g] at g'; cases g'
      · refine ⟨fun h => (by cases h), ?_⟩
        rintro (hb | ⟨-, ns, k, hl, -⟩)
        · exact absurd hb g2
        · exact absurd ⟨ns, hl⟩ g1
    · rw [h]
      rcases ents with ⟨_, _, _, g', _⟩ | ⟨g', _⟩ | ⟨_, _, _, g'⟩
      · rw [g] at g'; cases g'
      · exact ⟨fun _ => .inl g', fun _ => rfl⟩
      · rw [g] at g'; cases g'
    · obtain ⟨ns, hl, -, hp⟩ := key es g
      have hiff : FromTorrentFile H (some data) sp wd = .panic ↔ NewTorInfo name pl pieces es = .panic := by
        rcases hcase with ⟨ti, t, h1, h2⟩ | ⟨e, h1, h2⟩ | ⟨h1, h2⟩ <;> rw [h1, h2] <;> simp
      rw [hiff, hp]
      constructor
      · rintro ⟨h1, k, h2, h3⟩
        exact .inr ⟨h1, ns, k, hl, h2, h3⟩
      · rintro (hb | ⟨h1, ns', k, hl', h2, h3⟩)
        · exact absurd hb (excl ns hl)
        · rw [lengthsOf_unique hl' hl] at h2 h3
          exact ⟨h1, k, h2, h3⟩

/-- **C35**, the files that are safe: no path is empty and there are hashes for all of the contents. -/
theorem C35_no_panic_partial (H : Bytes → Bytes) (data sp wd : Bytes)
    (h : ∀ info pl pieces, HeaderOk data sp info pl pieces → 0 < pl ∧
      (¬ (intAt info (ascii "length") = none ∧ ∃ vs, listAt info (ascii "files") = some vs ∧ EmptyPath vs)) ∧
      ∀ ns, LengthsOf info ns → (∀ n ∈ ns, 0 ≤ n) ∧ total (ns.map Int.toNat) ≤ pieces.length / 20 * pl.toNat) :
    (∃ t, FromTorrentFile H (some data) sp wd = .ok t) ∨ ∃ e, FromTorrentFile H (some data) sp wd = .err e := by
  have hnp : FromTorrentFile H (some data) sp wd ≠ .panic := by
    rw [Ne, C35_panic_iff_partial H data sp wd (fun _ _ _ hh => (h _ _ _ hh).1) (fun _ _ _ ns hh hl => ((h _ _ _ hh).2.2 ns hl).1)]
    rintro ⟨info, pl, pieces, hh, hb | ⟨-, ns, k, hl, h1, h2⟩⟩
    · exact (h _ _ _ hh).2.1 hb
    · have := ((h _ _ _ hh).2.2 ns hl).2
      have hle := startPos_le_total (ns.map Int.toNat) (k + 1)
      omega
  cases hr : FromTorrentFile H (some data) sp wd with
  | ok t => exact .inl ⟨t, rfl⟩
  | err e => exact .inr ⟨e, rfl⟩
  | panic => exact absurd hr hnp
  | timeout => exact absurd hr (C35_terminates _ _ _ _)

/-- a file entry with an empty path list -/
def emptyPathFile : Bytes :=
  ascii "d8:announce1:a4:infod5:filesld6:lengthi3e4:pathleee4:name1:n12:piece lengthi4e6:pieces0:ee"

/-- two pieces of contents and the hash of one -/
def fewHashesFile : Bytes :=
  ascii "d8:announce1:a4:infod6:lengthi8e4:name1:n12:piece lengthi4e6:pieces20:aaaaaaaaaaaaaaaaaaaaee"

/-- piece length zero -/
def zeroPieceFile : Bytes :=
  ascii "d8:announce1:a4:infod6:lengthi8e4:name1:n12:piece lengthi0e6:pieces20:aaaaaaaaaaaaaaaaaaaaee"

def isPanic {α : Type} : Res α → Bool
  | .panic => true
  | _ => false

theorem isPanic_iff {α : Type} {r : Res α} : isPanic r = true ↔ r = .panic := by
  cases r <;> simp [isPanic]

theorem fromTorrentFile_panic {data wd : Bytes} {top info : Dict} {an : Bytes} (H : Bytes → Bytes) (hd : Decode data [] = .ok (.dict top))
    (ha : Dict.getString top (ascii "announce") = .ok an) (hi : Dict.getDict top (ascii "info") = .ok info)
    (hp : isPanic (FromDict info wd) = true) : FromTorrentFile H (some data) [] wd = .panic := by
  unfold FromTorrentFile
  simp only [hd, Res.ok_bind, ha, hi, isPanic_iff.mp hp]
  rfl

/-- **C35** refuted: a file with an empty path list makes loading panic. -/
theorem C35_refuted_empty_path (H : Bytes → Bytes) : FromTorrentFile H (some emptyPathFile) [] (ascii "/w") = .panic :=
  fromTorrentFile_panic
    (top := [(ascii "announce", .str (ascii "a")), (ascii "info", .dict [(ascii "files", .list [.dict [(ascii "length", .int64 3),
      (ascii "path", .list [])]]), (ascii "name", .str (ascii "n")), (ascii "piece length", .int64 4), (ascii "pieces", .str [])])])
    (info := [(ascii "files", .list [.dict [(ascii "length", .int64 3),
      (ascii "path", .list [])]]), (ascii "name", .str (ascii "n")), (ascii "piece length", .int64 4), (ascii "pieces", .str [])])
    (an := ascii "a") H (by decide +kernel) (by decide +kernel) (by decide +kernel) (by decide +kernel)

/-- the info dictionary of a file of 8 bytes with one hash -/
def oneHash (pl : Int) : Dict :=
  [(ascii "length", .int64 8), (ascii "name", .str (ascii "n")), (ascii "piece length", .int64 pl),
   (ascii "pieces", .str (ascii "aaaaaaaaaaaaaaaaaaaa"))]

/-- **C35** refuted: a file with too few hashes makes loading panic. -/
theorem C35_refuted_too_few_hashes (H : Bytes → Bytes) : FromTorrentFile H (some fewHashesFile) [] (ascii "/w") = .panic :=
  fromTorrentFile_panic (top := [(ascii "announce", .str (ascii "a")), (ascii "info", .dict (oneHash 4))])
    (info := oneHash 4) (an := ascii "a") H (by decide +kernel) (by decide +kernel) (by decide +kernel) (by decide +kernel)

/-- **C35** refuted: a piece length of zero makes loading panic. -/
theorem C35_refuted_zero_piece_length (H : Bytes → Bytes) : FromTorrentFile H (some zeroPieceFile) [] (ascii "/w") = .panic :=
  fromTorrentFile_panic (top := [(ascii "announce", .str (ascii "a")), (ascii "info", .dict (oneHash 0))])
    (info := oneHash 0) (an := ascii "a") H (by decide +kernel) (by decide +kernel) (by decide +kernel) (by decide +kernel)

/-- a file that meets the conditions of `C35_no_panic_partial` -/
def goodFile : Bytes :=
  ascii "d8:announce1:a4:infod6:lengthi4e4:name1:n12:piece lengthi4e6:pieces20:aaaaaaaaaaaaaaaaaaaaee"

example (H : Bytes → Bytes) : (∃ t, FromTorrentFile H (some goodFile) [] (ascii "/w") = .ok t) ∨
    ∃ e, FromTorrentFile H (some goodFile) [] (ascii "/w") = .err e := by
  have hh : HeaderOk goodFile [] [(ascii "length", .int64 4), (ascii "name", .str (ascii "n")), (ascii "piece length", .int64 4),
      (ascii "pieces", .str (ascii "aaaaaaaaaaaaaaaaaaaa"))] 4 (ascii "aaaaaaaaaaaaaaaaaaaa") :=
    ⟨[(ascii "announce", .str (ascii "a")), (ascii "info", .dict [(ascii "length", .int64 4), (ascii "name", .str (ascii "n")),
      (ascii "piece length", .int64 4), (ascii "pieces", .str (ascii "aaaaaaaaaaaaaaaaaaaa"))])],
      by decide +kernel, by decide, rfl, by decide, by decide, by decide⟩
  apply C35_no_panic_partial
  intro info pl pieces h
  obtain ⟨rfl, rfl, rfl⟩ := headerOk_unique h hh
  refine ⟨by decide, ?_, ?_⟩
  · rintro ⟨h1, -⟩
    revert h1
    decide
  · rintro ns (⟨n, hn, rfl⟩ | ⟨h1, -⟩)
    · have : n = 4 := by
        have e : intAt [(ascii "length", Value.int64 4), (ascii "name", .str (ascii "n")), (ascii "piece length", .int64 4),
          (ascii "pieces", .str (ascii "aaaaaaaaaaaaaaaaaaaa"))] (ascii "length") = some 4 := by decide
        rw [e] at hn
        exact (Option.some.inj hn).symm
      subst this
      decide
    · exact absurd h1 (by decide)

end Verif.Torrent
