import Verif.Model.Show
import Verif.Spec.Show
import Verif.Lemmas.Query
import Verif.Lemmas.BencodeEncode
import Verif.Props.Human
import Verif.Props.Saved
/-
Property C82: what the `info` command and the client print.
-/
set_option autoImplicit false

namespace Verif.Show
open Verif.Bencode Verif.Bencode.Spec Verif.Files Verif.Torrent Verif.Human Verif.ShowSpec Verif.Query Verif.Url

/-! ### pieces of text -/

theorem unhex_encode (b : Bytes) : unhex (hexEncode b) = some b := by
  induction b with
  | nil => rfl
  | cons c b ih =>
    have h : ∀ c : UInt8, hexVal (hexDigit (c / 16)) = some (c / 16) ∧ hexVal (hexDigit (c % 16)) = some (c % 16) ∧ c / 16 * 16 + c % 16 = c := by
      decide +kernel
    obtain ⟨h1, h2, h3⟩ := h c
    show unhex (hexDigit (c / 16) :: hexDigit (c % 16) :: hexEncode b) = _
    rw [unhex, h1, h2, ih]
    simp only [h3]

theorem hexEncode_oneLine (b : Bytes) : OneLine (hexEncode b) := by
  have h : ∀ c : UInt8, hexDigit (c / 16) ≠ 10 ∧ hexDigit (c % 16) ≠ 10 := by decide +kernel
  intro hm
  unfold hexEncode at hm
  obtain ⟨c, -, hc⟩ := List.mem_flatMap.mp hm
  rcases List.mem_cons.mp hc with e | e
  · exact (h c).1 e.symm
  · exact (h c).2 (List.mem_singleton.mp e).symm

theorem natDec_plain (n : Nat) : Plain (natDec n) := by
  constructor
  · intro h
    have := natDec_digits n _ h
    exact absurd this (by decide)
  · intro h
    have := natDec_digits n _ h
    exact absurd this (by decide)

theorem _root_.Verif.ShowSpec.OneLine.append {a b : Bytes} (ha : OneLine a) (hb : OneLine b) : OneLine (a ++ b) := by
  intro h
  rcases List.mem_append.mp h with h | h
  · exact ha h
  · exact hb h

theorem lines_cons (a rest : Bytes) (h : OneLine a) : lines (a ++ 10 :: rest) = a :: lines rest :=
  splitOn_append _ _ _ (fun _ hc e => h (e ▸ hc))

theorem lines_one (a : Bytes) (h : OneLine a) : lines a = [a] :=
  splitOn_none _ _ (fun _ hc e => h (e ▸ hc))

theorem field_inj {label : String} {a b : Bytes} (h : field label a = field label b) : a = b := by
  unfold field at h
  exact List.append_cancel_left (List.append_cancel_right h)

theorem field_oneLine {label : String} {v : Bytes} (hl : OneLine (ascii label)) (hv : OneLine v) : OneLine (field label v) := by
  unfold field
  exact ((hl.append (by decide)).append hv).append (by decide)

/-- every int64 has a text of this form -/
theorem humans_ok (n : Int) (hn : n < 2 ^ 63) : ∃ a d u, Bytes4Humans n = .ok (a, d, u) ∧ Plain u := by
  by_cases h : n < 0
  · unfold Bytes4Humans
    rw [if_pos (by omega)]
    exact ⟨_, _, _, rfl, by unfold Plain OneLine; decide⟩
  · obtain ⟨r, k, u, h1, h2, -⟩ := C78_number n.toNat (by omega)
    rw [Int.toNat_of_nonneg (by omega)] at h1
    refine ⟨_, _, u, h1, ?_⟩
    have hu : u ∈ units := List.mem_of_getElem? h2
    have : ∀ u ∈ units, (10 : UInt8) ∉ u ∧ (58 : UInt8) ∉ u := by decide
    exact this u hu

theorem fixed2_oneLine (n : Int) (d : Nat) : OneLine (fixed2 n d) := by
  unfold fixed2
  refine ((((?_ : OneLine _).append (natDec_plain _).1).append (by unfold OneLine; decide)).append (natDec_plain _).1).append (natDec_plain _).1
  split
  · unfold OneLine; decide
  · exact List.not_mem_nil

theorem intDec_plain (n : Int) : Plain (Human.intDec n) := by
  unfold Human.intDec
  split
  · obtain ⟨h1, h2⟩ := natDec_plain n.natAbs
    refine ⟨OneLine.append (by decide) h1, ?_⟩
    intro h
    rcases List.mem_append.mp h with h | h
    · exact absurd h (by decide)
    · exact h2 h
  · exact natDec_plain _

theorem human_intDec (n : Int) : Human.intDec n = decInt n := by
  rw [decInt_eq]
  unfold Human.intDec Bencode.intDec
  split <;> rfl

/-! ### the torrent -/

/-- the facts about a torrent -/
def facts (t : Torrent) : Facts :=
  ⟨t.info.name, t.announce, t.infohash, t.info.numPieces, t.info.length, if t.info.isSingle then none else some (t.info.flist.map fun e => e.base.torPath)⟩

/-- sizes are 64-bit numbers -/
structure Sizes64 (ti : TorInfo) : Prop where
  pieceLen : ti.pieceLen < 2 ^ 63
  length : ti.length < 2 ^ 63
  files : ∀ e ∈ ti.flist, e.base.length < 2 ^ 63

theorem fileLines_lines (fv : Int → Int → Bytes) (hfv : ∀ n d, Plain (fv n d)) (es : List Entry) (h64 : ∀ e ∈ es, e.base.length < 2 ^ 63)
    (ho : ∀ e ∈ es, OneLine e.base.torPath) :
    ∃ (out : Bytes) (sizes : List Bytes), fileLines fv es = .ok out ∧ sizes.length = es.length ∧ (∀ s ∈ sizes, (58 : UInt8) ∉ s) ∧
      lines out = List.zipWith (fun s p => s ++ ascii " : " ++ p) sizes (es.map fun e => e.base.torPath) ++ [[]] := by
  induction es with
  | nil => exact ⟨[], [], rfl, rfl, by simp, rfl⟩
  | cons e es ih =>
    obtain ⟨out, sizes, h1, h2, h3, h4⟩ := ih (fun x hx => h64 x (by simp [hx])) (fun x hx => ho x (by simp [hx]))
    obtain ⟨n, d, u, g1, g2⟩ := humans_ok e.base.length (h64 e (by simp))
    have hpad : Plain (padLeft 8 (fv n d ++ u)) := by
      unfold padLeft
      refine ⟨OneLine.append ?_ (OneLine.append (hfv n d).1 g2.1), ?_⟩
      · intro h; exact absurd (List.mem_replicate.mp h).2 (by decide)
      · intro h
        rcases List.mem_append.mp h with h | h
        · exact absurd (List.mem_replicate.mp h).2 (by decide)
        · rcases List.mem_append.mp h with h | h
          · exact (hfv n d).2 h
          · exact g2.2 h
    refine ⟨padLeft 8 (fv n d ++ u) ++ ascii " : " ++ e.base.torPath ++ [10] ++ out, padLeft 8 (fv n d ++ u) :: sizes, ?_, by simp [h2], ?_, ?_⟩
    · rw [fileLines, fileLine, g1]
      simp only [Res.ok_bind]
      rw [h1]
      rfl
    · intro s hs
      rcases List.mem_cons.mp hs with rfl | hs
      · exact hpad.2
      · exact h3 s hs
    · rw [List.append_assoc, List.singleton_append, lines_cons _ _ (OneLine.append (OneLine.append hpad.1 (by decide)) (ho e (by simp))), h4]
      rfl

theorem lines_three (a b c : Bytes) (ha : OneLine a) (hb : OneLine b) (hc : OneLine c) :
    lines (a ++ [10] ++ (b ++ [10] ++ c)) = [a, b, c] ∧ ∀ rest, lines (a ++ [10] ++ (b ++ [10] ++ c) ++ 10 :: rest) = a :: b :: c :: lines rest := by
  constructor
  · rw [show a ++ [10] ++ (b ++ [10] ++ c) = a ++ 10 :: (b ++ 10 :: c) by simp, lines_cons _ _ ha, lines_cons _ _ hb, lines_one _ hc]
  · intro rest
    rw [show a ++ [10] ++ (b ++ [10] ++ c) ++ 10 :: rest = a ++ 10 :: (b ++ 10 :: (c ++ 10 :: rest)) by simp, lines_cons _ _ ha, lines_cons _ _ hb,
      lines_cons _ _ hc]

/-- **C82** (partial: names, announce URL and paths on one line each, see `C82_refuted_forged`).  The output of the `info` command exists for
every torrent and says what its name, announce URL, info-hash, number of pieces, length and files are. -/
theorem C82_info_partial (fv : Int → Int → Bytes) (hfv : ∀ n d, Plain (fv n d)) (t : Torrent) (h64 : Sizes64 t.info) (hn : OneLine t.info.name)
    (ha : OneLine t.announce) (hp : ∀ e ∈ t.info.flist, OneLine e.base.torPath) :
    ∃ out, TorrentString fv t = .ok out ∧ Says out (facts t) := by
  obtain ⟨n1, d1, u1, g1, g2⟩ := humans_ok t.info.pieceLen h64.pieceLen
  obtain ⟨n2, d2, u2, g3, g4⟩ := humans_ok t.info.length h64.length
  obtain ⟨fl, sizes, f1, f2, f3, f4⟩ := fileLines_lines fv hfv t.info.flist h64.files hp
  have hpl : pieceLine fv t.info = .ok (field "   Pieces" (decNat t.info.numPieces ++ ascii " x " ++ (fv n1 d1 ++ ascii " " ++ u1)) ++ [10]) := by
    unfold pieceLine
    rw [g1]
    simp [field, ascii, decNat_eq]
  have hll : lengthLines t.info.length = .ok (field "   Length" (fixed2 n2 d2.toNat ++ ascii " " ++ u2) ++ [10] ++
      field "   Length" (decInt t.info.length ++ ascii " b")) := by
    unfold lengthLines
    rw [g3]
    simp [field, ascii, human_intDec]
  have hhead : ∀ rest : Bytes, lines (ascii "Torrent Info:\n" ++ ascii "     Name: [" ++ t.info.name ++ ascii "]\n" ++ ascii " Announce: [" ++ t.announce ++
      ascii "]\n" ++ ascii " Infohash: [" ++ hexEncode t.infohash ++ ascii "]\n" ++ rest) =
      ascii "Torrent Info:" :: field "     Name" t.info.name :: field " Announce" t.announce :: field " Infohash" (hexEncode t.infohash) :: lines rest := by
    intro rest
    have : ascii "Torrent Info:\n" ++ ascii "     Name: [" ++ t.info.name ++ ascii "]\n" ++ ascii " Announce: [" ++ t.announce ++
      ascii "]\n" ++ ascii " Infohash: [" ++ hexEncode t.infohash ++ ascii "]\n" ++ rest = ascii "Torrent Info:" ++ 10 :: (field "     Name" t.info.name ++ 10 ::
        (field " Announce" t.announce ++ 10 :: (field " Infohash" (hexEncode t.infohash) ++ 10 :: rest))) := by
      simp [field, ascii]
    rw [this, lines_cons _ _ (by decide), lines_cons _ _ (field_oneLine (by decide) hn), lines_cons _ _ (field_oneLine (by decide) ha),
      lines_cons _ _ (field_oneLine (by decide) (hexEncode_oneLine _))]
  have h1 : OneLine (field "   Pieces" (decNat t.info.numPieces ++ ascii " x " ++ (fv n1 d1 ++ ascii " " ++ u1))) :=
    field_oneLine (by decide) (OneLine.append (OneLine.append (by rw [decNat_eq]; exact (natDec_plain _).1) (by decide))
      (OneLine.append (OneLine.append (hfv _ _).1 (by decide)) g2.1))
  have h2 : OneLine (field "   Length" (fixed2 n2 d2.toNat ++ ascii " " ++ u2)) :=
    field_oneLine (by decide) (OneLine.append (OneLine.append (fixed2_oneLine _ _) (by decide)) g4.1)
  have h3 : OneLine (field "   Length" (decInt t.info.length ++ ascii " b")) :=
    field_oneLine (by decide) (OneLine.append (by rw [← human_intDec]; exact (intDec_plain _).1) (by decide))
  unfold TorrentString
  rw [hpl, hll]
  simp only [Res.ok_bind]
  by_cases hsing : t.info.isSingle
  · rw [if_pos hsing]
    refine ⟨_, rfl, hexEncode t.infohash, fv n1 d1 ++ ascii " " ++ u1, fixed2 n2 d2.toNat ++ ascii " " ++ u2, [], unhex_encode _, by simp, ?_, ?_⟩
    · rw [List.append_nil, List.append_assoc, hhead, (lines_three _ _ _ h1 h2 h3).1]
      simp [facts, hsing]
    · intro ps hps
      simp [facts, hsing] at hps
  · rw [if_neg hsing, f1]
    simp only [Res.ok_bind]
    refine ⟨_, rfl, hexEncode t.infohash, fv n1 d1 ++ ascii " " ++ u1, fixed2 n2 d2.toNat ++ ascii " " ++ u2, sizes, unhex_encode _, f3, ?_, ?_⟩
    · rw [List.append_assoc, List.append_assoc, hhead, ← List.append_assoc, show ascii "\nFiles:\n" ++ fl = 10 :: (ascii "Files:" ++ 10 :: fl) by simp [ascii],
        (lines_three _ _ _ h1 h2 h3).2, lines_cons _ _ (by decide), f4]
      simp [facts, hsing]
    · intro ps hps
      simp only [facts, hsing, Bool.false_eq_true, if_false, Option.some.injEq] at hps
      rw [f2, ← hps, List.length_map]

/-- **C82**: the output is not ambiguous, whatever it contains. -/
theorem C82_unambiguous (out : Bytes) (f g : Facts) (hf : Says out f) (hg : Says out g) : f = g := by
  obtain ⟨hx, size, about, sizes, a1, a2, a3, a4⟩ := hf
  obtain ⟨hx', size', about', sizes', b1, b2, b3, b4⟩ := hg
  rw [a3] at b3
  simp only [List.cons_append, List.nil_append, List.cons.injEq, true_and] at b3
  obtain ⟨c1, c2, c3, c4, -, c5, c6⟩ := b3
  have e1 := field_inj c1
  have e2 := field_inj c2
  have e3 := field_inj c3
  have e4 := field_inj c4
  have e5 := field_inj c5
  have i3 : f.infohash = g.infohash := by
    rw [← e3, a1] at b1
    exact Option.some.inj b1
  have i4 : f.numPieces = g.numPieces := by
    have : decNat f.numPieces ++ 32 :: (ascii "x " ++ size) = decNat g.numPieces ++ 32 :: (ascii "x " ++ size') := by
      simpa [ascii] using e4
    exact (decNat_split (by decide) (by decide) this).1
  have i5 : f.length = g.length := by
    have h := List.append_cancel_right e5
    have : decInt f.length ++ (101 : UInt8) :: [] = decInt g.length ++ (101 : UInt8) :: [] := by rw [h]
    exact (int_split this).1
  have i6 : f.files = g.files := by
    cases hf : f.files with
    | none =>
      rw [hf] at c6
      cases hg : g.files with
      | none => rfl
      | some qs => rw [hg] at c6; cases c6
    | some ps =>
      rw [hf] at c6
      cases hg : g.files with
      | none => rw [hg] at c6; cases c6
      | some qs =>
        rw [hg] at c6
        simp only [List.cons.injEq, true_and] at c6
        have c7 := List.append_cancel_right c6
        have key : ∀ (ss : List Bytes) (ps : List Bytes) (ss' qs : List Bytes), ss.length = ps.length → ss'.length = qs.length →
            (∀ s ∈ ss, (58 : UInt8) ∉ s) → (∀ s ∈ ss', (58 : UInt8) ∉ s) →
            List.zipWith (fun s p => s ++ ascii " : " ++ p) ss ps = List.zipWith (fun s p => s ++ ascii " : " ++ p) ss' qs → ps = qs := by
          intro ss
          induction ss with
          | nil =>
            intro ps ss' qs h1 h2 _ _ h3
            have : ps = [] := List.length_eq_zero_iff.mp h1.symm
            subst this
            cases ss' with
            | nil => exact (List.length_eq_zero_iff.mp h2.symm).symm
            | cons s ss' =>
              cases qs with
              | nil => cases h2
              | cons q qs => cases h3
          | cons s ss ih =>
            intro ps ss' qs h1 h2 h4 h5 h3
            cases ps with
            | nil => cases h1
            | cons p ps =>
              cases ss' with
              | nil => cases h3
              | cons s' ss' =>
                cases qs with
                | nil => cases h2
                | cons q qs =>
                  simp only [List.zipWith_cons_cons, List.cons.injEq] at h3
                  have hrest := ih ps ss' qs (by simpa using h1) (by simpa using h2) (fun x hx => h4 x (by simp [hx])) (fun x hx => h5 x (by simp [hx])) h3.2
                  have hs : splitOn 58 ((s ++ [32]) ++ 58 :: ([32] ++ p)) = splitOn 58 ((s' ++ [32]) ++ 58 :: ([32] ++ q)) := by
                    congr 1
                    simpa [ascii] using h3.1
                  have n1 : ∀ c ∈ s ++ [32], c ≠ (58 : UInt8) := by
                    intro c hc e
                    rcases List.mem_append.mp hc with hc | hc
                    · exact h4 s (by simp) (e ▸ hc)
                    · rw [List.mem_singleton.mp hc] at e; exact absurd e (by decide)
                  have n2 : ∀ c ∈ s' ++ [32], c ≠ (58 : UInt8) := by
                    intro c hc e
                    rcases List.mem_append.mp hc with hc | hc
                    · exact h5 s' (by simp) (e ▸ hc)
                    · rw [List.mem_singleton.mp hc] at e; exact absurd e (by decide)
                  rw [splitOn_append _ _ _ n1, splitOn_append _ _ _ n2, List.cons.injEq] at hs
                  have hss := List.append_cancel_right hs.1
                  subst hss
                  have hp : p = q := List.append_cancel_left (as := s ++ ascii " : ") h3.1
                  rw [hp, hrest]
        rw [key sizes ps sizes' qs (a4 ps hf) (b4 qs hg) a2 b2 c7]
  cases f; cases g
  simp only at e1 e2 i3 i4 i5 i6
  rw [e1, e2, i3, i4, i5, i6]

/-- **C82** (partial, as `C82_info_partial`): torrents that differ in one of these facts have different outputs. -/
theorem C82_distinct_partial (fv : Int → Int → Bytes) (hfv : ∀ n d, Plain (fv n d)) (t t' : Torrent) (h64 : Sizes64 t.info) (h64' : Sizes64 t'.info)
    (hn : OneLine t.info.name) (ha : OneLine t.announce) (hp : ∀ e ∈ t.info.flist, OneLine e.base.torPath)
    (hn' : OneLine t'.info.name) (ha' : OneLine t'.announce) (hp' : ∀ e ∈ t'.info.flist, OneLine e.base.torPath)
    (h : TorrentString fv t = TorrentString fv t') : facts t = facts t' := by
  obtain ⟨o1, g1, g2⟩ := C82_info_partial fv hfv t h64 hn ha hp
  obtain ⟨o2, g3, g4⟩ := C82_info_partial fv hfv t' h64' hn' ha' hp'
  rw [g1, g3] at h
  cases h
  exact C82_unambiguous _ _ _ g2 g4

/-- the hypotheses hold for a torrent of two files -/
example : ∃ ti, NewTorInfo (ascii "n") 4 (List.replicate 20 7) [MakeFileEntry (ascii "a") 1, MakeFileEntry (ascii "b/c") 3] = .ok ti ∧ Sizes64 ti ∧ OneLine ti.name ∧
    (∀ e ∈ ti.flist, OneLine e.base.torPath) ∧ ∃ out, TorrentString (fun n _ => Human.intDec n) ⟨[1, 171], ascii "http://t", ti⟩ = .ok out ∧
    out = ascii "Torrent Info:\n     Name: [n]\n Announce: [http://t]\n Infohash: [01ab]\n   Pieces: [1 x 4 B]\n   Length: [4.00 B]\n   Length: [4 b]\nFiles:\n      1B : a\n      3B : b/c\n" := by
  refine ⟨_, rfl, ⟨by decide, by decide, by decide⟩, by decide, by decide, _, rfl, by decide +kernel⟩

example : ∀ n d : Int, Plain ((fun n _ => Human.intDec n) n d) := fun n _ => intDec_plain n

/-- the lines below the info-hash of a torrent of the two empty files `a` and `p`, up to the last line break -/
def exBelow (fv : Int → Int → Bytes) (p : Bytes) : Bytes :=
  ascii "   Pieces: [0 x " ++ fv 1 1 ++ ascii " B]\n   Length: [0.00 B]\n   Length: [0 b]\nFiles:\n" ++
    padLeft 8 (fv 0 1 ++ ascii "B") ++ ascii " : a\n" ++ padLeft 8 (fv 0 1 ++ ascii "B") ++ ascii " : " ++ p

theorem ex_two (fv : Int → Int → Bytes) (p : Bytes) : ∃ ti, NewTorInfo (ascii "n") 1 [] [MakeFileEntry (ascii "a") 0, MakeFileEntry p 0] = .ok ti ∧
    ∀ ih an : Bytes, TorrentString fv ⟨ih, an, ti⟩ = .ok (ascii "Torrent Info:\n     Name: [n]\n Announce: [" ++ an ++ ascii "]\n Infohash: [" ++ hexEncode ih ++
      ascii "]\n" ++ exBelow fv p ++ [10]) := by
  refine ⟨_, rfl, fun ih an => ?_⟩
  have e1 : Bytes4Humans 0 = .ok (0, 1, ascii "B") := by decide +kernel
  have e2 : Bytes4Humans 1 = .ok (1, 1, ascii "B") := by decide +kernel
  have e3 : lengthLines 0 = .ok (ascii "   Length: [0.00 B]\n   Length: [0 b]") := by decide +kernel
  have e4 : natDec 0 = ascii "0" := by decide +kernel
  unfold TorrentString
  simp only [pieceLine, e2, List.length_nil, Nat.zero_div, e4, List.map_cons, List.map_nil, MakeFileEntry, List.sum_cons, List.sum_nil, Int.add_zero, e3, Res.ok_bind,
    fileListLoop, List.length_cons, fileLines, fileLine, e1]
  simp [exBelow, ascii]

/-- **C82** refuted: an announce URL and a path with line breaks make the outputs for two torrents with different info-hashes the same. -/
theorem C82_refuted_forged (fv : Int → Int → Bytes) : ∃ (t t' : Torrent) (files files' : List EntryBase),
    NewTorInfo (ascii "n") 1 [] files = .ok t.info ∧ NewTorInfo (ascii "n") 1 [] files' = .ok t'.info ∧
    t.infohash ≠ t'.infohash ∧ t.announce ≠ t'.announce ∧ files ≠ files' ∧ ∃ out, TorrentString fv t = .ok out ∧ TorrentString fv t' = .ok out := by
  obtain ⟨ti, h1, h2⟩ := ex_two fv (ascii "b")
  obtain ⟨ti', h3, h4⟩ := ex_two fv (ascii "b\n Announce: [v]\n Infohash: [01]\n" ++ exBelow fv (ascii "b"))
  refine ⟨⟨[1], ascii "u]\n Infohash: [02]\n" ++ exBelow fv (ascii "b") ++ ascii "\n Announce: [v", ti⟩, ⟨[2], ascii "u", ti'⟩, _, _, h1, h3, ?_, ?_, ?_,
    _, h2 _ _, ?_⟩
  · show ([1] : Bytes) ≠ [2]
    decide
  · intro h
    have := congrArg List.length h
    simp [ascii] at this
  · intro h
    have := congrArg (List.map fun f => f.torPath.length) h
    simp [ascii, MakeFileEntry] at this
  · rw [h4]
    congr 1
    have e1 : hexEncode [1] = ascii "01" := by decide
    have e2 : hexEncode [2] = ascii "02" := by decide
    have e3 : ascii "b\n Announce: [v]\n Infohash: [01]\n" = ascii "b" ++ ascii "\n Announce: [v" ++ ascii "]\n Infohash: [" ++ ascii "01" ++ ascii "]\n" := by decide
    have e4 : ascii "u]\n Infohash: [02]\n" = ascii "u" ++ ascii "]\n Infohash: [" ++ ascii "02" ++ ascii "]\n" := by decide
    have e5 : ∀ p, exBelow fv p = exBelow fv [] ++ p := by intro p; unfold exBelow; rw [List.append_nil]
    rw [e1, e2, e3, e4, e5 (ascii "b"), e5 (_ ++ _)]
    simp only [List.append_assoc]

/-! ### tracker state and peers -/

/-- **C82** (partial: warning and tracker id on one line each): the lines about the tracker. -/
theorem C82_state_partial (s : Tracker.State) (hw : OneLine s.warning) (ht : OneLine s.tid) :
    lines (StateString s) = [ascii "Tracker State:", field "     Seeders" (decNat s.seeders), field "    Leechers" (decNat s.leechers),
      field "    Interval" (decNat s.interval), field "     Warning" s.warning, field "  Tracker ID" s.tid, field "Min Interval" (decNat s.minInterval), []] := by
  have hs : StateString s = ascii "Tracker State:" ++ 10 :: (field "     Seeders" (decNat s.seeders) ++ 10 :: (field "    Leechers" (decNat s.leechers) ++ 10 ::
      (field "    Interval" (decNat s.interval) ++ 10 :: (field "     Warning" s.warning ++ 10 :: (field "  Tracker ID" s.tid ++ 10 ::
        (field "Min Interval" (decNat s.minInterval) ++ 10 :: [])))))) := by
    simp [StateString, stateLine, field, padLeft, ascii, decNat_eq, List.replicate]
  have hd : ∀ n, OneLine (decNat n) := fun n => by rw [decNat_eq]; exact (natDec_plain n).1
  rw [hs, lines_cons _ _ (by decide), lines_cons _ _ (field_oneLine (by decide) (hd _)), lines_cons _ _ (field_oneLine (by decide) (hd _)),
    lines_cons _ _ (field_oneLine (by decide) (hd _)), lines_cons _ _ (field_oneLine (by decide) hw), lines_cons _ _ (field_oneLine (by decide) ht),
    lines_cons _ _ (field_oneLine (by decide) (hd _))]
  rfl

example : OneLine (ascii "try later") := by decide

/-- **C82** (partial: warning and tracker id on one line each): the text of a tracker's answer has the lines about the tracker and then the list of peers. -/
theorem C82_response_partial (v6 : Peer.IP → Bytes) (r : Tracker.Response) (hw : OneLine r.state.warning) (ht : OneLine r.state.tid) :
    lines (ResponseString v6 r) = [ascii "Tracker State:", field "     Seeders" (decNat r.state.seeders), field "    Leechers" (decNat r.state.leechers),
      field "    Interval" (decNat r.state.interval), field "     Warning" r.state.warning, field "  Tracker ID" r.state.tid,
      field "Min Interval" (decNat r.state.minInterval)] ++ lines (ListString v6 r.peers) := by
  have hs : ResponseString v6 r = ascii "Tracker State:" ++ 10 :: (field "     Seeders" (decNat r.state.seeders) ++ 10 ::
      (field "    Leechers" (decNat r.state.leechers) ++ 10 :: (field "    Interval" (decNat r.state.interval) ++ 10 ::
        (field "     Warning" r.state.warning ++ 10 :: (field "  Tracker ID" r.state.tid ++ 10 ::
          (field "Min Interval" (decNat r.state.minInterval) ++ 10 :: ListString v6 r.peers)))))) := by
    simp [ResponseString, StateString, stateLine, field, padLeft, ascii, decNat_eq, List.replicate]
  have hd : ∀ n, OneLine (decNat n) := fun n => by rw [decNat_eq]; exact (natDec_plain n).1
  rw [hs, lines_cons _ _ (by decide), lines_cons _ _ (field_oneLine (by decide) (hd _)), lines_cons _ _ (field_oneLine (by decide) (hd _)),
    lines_cons _ _ (field_oneLine (by decide) (hd _)), lines_cons _ _ (field_oneLine (by decide) hw), lines_cons _ _ (field_oneLine (by decide) ht),
    lines_cons _ _ (field_oneLine (by decide) (hd _))]
  rfl

example : OneLine (⟨0, 0, [], [], 0, 0⟩ : Tracker.State).warning ∧ OneLine (⟨0, 0, [], [], 0, 0⟩ : Tracker.State).tid := by decide

theorem decNat_inj {m n : Nat} (h : decNat m = decNat n) : m = n :=
  (decNat_split (c := 32) (c' := 32) (r := []) (r' := []) (by decide) (by decide) (by rw [h])).1

/-- the text up to the first byte of a kind determines the rest -/
theorem cut_first {x : UInt8} {a b r r' : Bytes} (ha : x ∉ a) (hb : x ∉ b) (h : a ++ x :: r = b ++ x :: r') : a = b ∧ r = r' := by
  have h' : splitOn x (a ++ x :: r) = splitOn x (b ++ x :: r') := by rw [h]
  rw [splitOn_append x a r (fun c hc e => ha (e ▸ hc)), splitOn_append x b r' (fun c hc e => hb (e ▸ hc)), List.cons.injEq] at h'
  obtain ⟨rfl, -⟩ := h'
  have := List.append_cancel_left h
  rw [List.cons.injEq] at this
  exact ⟨rfl, this.2⟩

/-- the same from the end -/
theorem cut_last {x : UInt8} {a b r r' : Bytes} (hr : x ∉ r) (hr' : x ∉ r') (h : a ++ x :: r = b ++ x :: r') : a = b ∧ r = r' := by
  have h' := congrArg List.reverse h
  simp only [List.reverse_append, List.reverse_cons, List.append_assoc, List.singleton_append] at h'
  obtain ⟨e1, e2⟩ := cut_first (by simpa using hr) (by simpa using hr') h'
  exact ⟨List.reverse_inj.mp e2, List.reverse_inj.mp e1⟩

theorem peerLoop_inj (v6 : Peer.IP → Bytes) (hv : ∀ ip, (41 : UInt8) ∉ v6 ip) (l : List Peer.Info) : ∀ (i : Nat) (l' : List Peer.Info),
    peerLoop v6 i l = peerLoop v6 i l' → l.map (fun p => (Peer.ipString v6 p.ip, p.port)) = l'.map (fun p => (Peer.ipString v6 p.ip, p.port)) := by
  have hip : ∀ ip, (41 : UInt8) ∉ Peer.ipString v6 ip := by
    intro ip h
    unfold Peer.ipString at h
    split at h
    · exact absurd h (by decide)
    · split at h
      · have hd : ∀ n : Nat, (41 : UInt8) ∉ natDec n := fun n hm => absurd (natDec_digits n _ hm) (by decide)
        simp only [List.mem_append, List.mem_singleton, hd, false_or, or_false] at h
        exact absurd h (by decide)
      · exact hv ip h
  induction l with
  | nil =>
    intro i l' h
    cases l' with
    | nil => rfl
    | cons p l' =>
      have := congrArg List.length h
      simp [peerLoop, ascii] at this
  | cons p l ih =>
    intro i l' h
    cases l' with
    | nil =>
      have := congrArg List.length h
      simp [peerLoop, ascii] at this
    | cons q l' =>
      rw [peerLoop, peerLoop, List.append_assoc (if i % 5 = 0 then _ else _), List.append_assoc (if i % 5 = 0 then _ else _)] at h
      have h1 := List.append_cancel_left h
      have h2 : (Peer.ipString v6 p.ip ++ 58 :: natDec p.port.toNat) ++ 41 :: (32 :: peerLoop v6 (i + 1) l) =
          (Peer.ipString v6 q.ip ++ 58 :: natDec q.port.toNat) ++ 41 :: (32 :: peerLoop v6 (i + 1) l') := by
        simpa [ascii] using h1
      have hno : ∀ p : Peer.Info, (41 : UInt8) ∉ Peer.ipString v6 p.ip ++ 58 :: natDec p.port.toNat := by
        intro p hm
        rcases List.mem_append.mp hm with hm | hm
        · exact hip _ hm
        · rcases List.mem_cons.mp hm with hm | hm
          · exact absurd hm (by decide)
          · exact absurd (natDec_digits _ _ hm) (by decide)
      obtain ⟨h3, h4⟩ := cut_first (hno p) (hno q) h2
      obtain ⟨h5, h6⟩ := cut_last (natDec_plain _).2 (natDec_plain _).2 h3
      rw [List.cons.injEq] at h4
      rw [← decNat_eq, ← decNat_eq] at h6
      rw [List.map_cons, List.map_cons, ih (i + 1) l' h4.2, h5, UInt16.toNat_inj.mp (decNat_inj h6)]

/-- **C82**: the list of peers is shown without ambiguity: all of them, in order, with address and port.  (Only the text of addresses
that are not IPv4 is a parameter; it has no closing bracket.) -/
theorem C82_peers (v6 : Peer.IP → Bytes) (hv : ∀ ip, (41 : UInt8) ∉ v6 ip) (l l' : List Peer.Info) (h : ListString v6 l = ListString v6 l') :
    l.map (fun p => (Peer.ipString v6 p.ip, p.port)) = l'.map (fun p => (Peer.ipString v6 p.ip, p.port)) := by
  have h1 : natDec l.length ++ 41 :: (58 :: peerLoop v6 0 l) = natDec l'.length ++ 41 :: (58 :: peerLoop v6 0 l') := by
    have := h
    unfold ListString at this
    simpa [ascii] using this
  rw [← decNat_eq, ← decNat_eq] at h1
  obtain ⟨-, h2⟩ := decNat_split (by decide) (by decide) h1
  rw [List.cons.injEq] at h2
  exact peerLoop_inj v6 hv l 0 l' h2.2

example : ListString (fun _ => []) [Peer.MakePeer (fun _ => []) [] [1, 2, 3, 4] 80, Peer.MakePeer (fun _ => []) [] [] 0] =
    ascii "Peer List (2):\n\t(1.2.3.4:80) (<nil>:0) " := by decide +kernel

/-- **C82**: the client prints the lines of the torrent, those of the tracker and the list of peers, in this order. -/
theorem C82_client_partial (fv : Int → Int → Bytes) (hfv : ∀ n d, Plain (fv n d)) (v6 : Peer.IP → Bytes) (s : Startup.Started) (h64 : Sizes64 s.tor.info)
    (hn : OneLine s.tor.info.name) (ha : OneLine s.tor.announce) (hp : ∀ e ∈ s.tor.info.flist, OneLine e.base.torPath) :
    ∃ out, SwarmString fv v6 s = .ok (out ++ [10] ++ StateString s.state ++ [10] ++ ListString v6 s.peers) ∧ Says out (facts s.tor) := by
  obtain ⟨out, h1, h2⟩ := C82_info_partial fv hfv s.tor h64 hn ha hp
  refine ⟨out, ?_, h2⟩
  unfold SwarmString
  rw [h1]
  rfl

example : OneLine (ascii "name") ∧ OneLine (ascii "http://t/announce") := by decide

/-- **C82**: the `info` command prints the output for the torrent that is loaded from the file, and fails exactly if that fails. -/
theorem C82_command_partial (H : Bytes → Bytes) (fv : Int → Int → Bytes) (hfv : ∀ n d, Plain (fv n d)) (data : Option Bytes) (sp wd : Bytes) :
    (∀ t, FromTorrentFile H data sp wd = .ok t → Sizes64 t.info → OneLine t.info.name → OneLine t.announce → (∀ e ∈ t.info.flist, OneLine e.base.torPath) →
      ∃ out, CmdTorInfo H fv data sp wd = .ok (out ++ [10]) ∧ Says out (facts t)) ∧
    ((∀ t, FromTorrentFile H data sp wd ≠ .ok t) → ∀ out, CmdTorInfo H fv data sp wd ≠ .ok out) := by
  constructor
  · intro t h h64 hn ha hp
    obtain ⟨out, h1, h2⟩ := C82_info_partial fv hfv t h64 hn ha hp
    refine ⟨out, ?_, h2⟩
    unfold CmdTorInfo
    rw [h, Res.ok_bind, h1]
    rfl
  · intro h out ho
    obtain ⟨t, h1, -⟩ := Res.bind_eq_ok.mp ho
    exact h t h1

open Verif.FileIO Verif.Create in
/-- the torrent file of the examples of C70 is printed -/
example : ∃ t, FromTorrentFile exH (some exSaved) [] (ascii "/w") = .ok t ∧ OneLine t.announce := by
  obtain ⟨ti, h1, h2, h3⟩ := ex_saved (fun _ => some 2) (fun _ => rfl)
  obtain ⟨t, ti', t1, t2, t3⟩ := C70_created_iff_partial exH _ exFs 6 [ascii "a", ascii "b", ascii "d/c"] (ascii "/w") (ascii "t") 8 (by decide) (by decide)
    ti h1 (by rw [h2]; decide) (ascii "http://t") exSaved [] h3 (by decide +kernel)
  exact ⟨_, t2, by show OneLine (ascii "http://t"); decide⟩

end Verif.Show
