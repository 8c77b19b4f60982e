import Verif.Props.Info
import Verif.Lemmas.Path
import Verif.Props.Bencode
/-
Property C33, exactly: which info dictionaries survive loading and converting back
(/repo/src/torrent/info/info.go FromDict and Bencode).
-/
set_option autoImplicit false

namespace Verif.Torrent
open Verif.Files Verif.Bencode Verif.Bencode.Spec Verif.Path Verif.Info

/-- **C33**, exactly: an info dictionary that loads is reproduced by `Bencode` if and only if it has exactly the keys this client
writes, with `private` 0, and describes either a single file or a list of not exactly one file whose path components contain no
slash.  All other dictionaries that load (with any further key, without `private`, …) are changed. -/
theorem C33_exact (d : Dict) (wd : Bytes) (hm : IsMap (.dict d)) (ti : TorInfo) (h : FromDict d wd = .ok ti) :
    Same (.dict d) (.dict (benInfo ti)) ↔
      (∃ name pieces pl len, Same (.dict d) (.dict (singleInfo name pieces pl len))) ∨
      ∃ name pieces pl files, Same (.dict d) (.dict (multiInfo name pieces pl files)) ∧ files.length ≠ 1 ∧
        ∀ f ∈ files, f.2 ≠ [] ∧ ∀ c ∈ f.2, (47 : UInt8) ∉ c := by
  constructor
  · intro hs
    obtain ⟨n, p, ps, fes, -, -, -, -, h5⟩ := fromDict_ok h
    obtain ⟨-, -, -, g4, -, g6⟩ := newTorInfo_fields h5
    cases hi : ti.isSingle with
    | true =>
      refine .inl ⟨ti.name, ti.hashes, ti.pieceLen, ti.length, ?_⟩
      have : benInfo ti = singleInfo ti.name ti.hashes ti.pieceLen ti.length := by
        simp only [benInfo, hi, singleInfo, if_true]
      rw [← this]; exact hs
    | false =>
      refine .inr ⟨ti.name, ti.hashes, ti.pieceLen, ti.flist.map fun e => (e.base.length, splitSlash e.base.torPath), ?_, ?_, ?_⟩
      · have : benInfo ti = multiInfo ti.name ti.hashes ti.pieceLen
            (ti.flist.map fun e => (e.base.length, splitSlash e.base.torPath)) := by
          simp only [benInfo, hi, multiInfo, Bool.false_eq_true, if_false, List.map_map]
          rfl
        rw [← this]; exact hs
      · intro hc
        have hl : fes.length = 1 := by
          rw [← g6, List.length_map]
          simpa using hc
        rw [g4.mpr hl] at hi
        cases hi
      · intro f hf
        obtain ⟨e, -, rfl⟩ := List.mem_map.mp hf
        exact ⟨splitSlash_ne_nil _, splitSlash_noslash _⟩
  · rintro (⟨name, pieces, pl, len, hs⟩ | ⟨name, pieces, pl, files, hs, hn, hf⟩)
    · exact (C33_single name pieces wd pl len d hm hs ti h).1
    · exact (C33_multi_partial name pieces wd pl files hn hf d hm hs ti h).1

/-- what `Bencode` builds is a map at every level -/
theorem benInfo_isMap (ti : TorInfo) : IsMap (.dict (benInfo ti)) := by
  refine .dict _ ?_ ?_
  · cases hi : ti.isSingle <;> simp only [benInfo, hi, if_true, Bool.false_eq_true, if_false, List.map_cons, List.map_nil] <;> decide
  · intro e he
    simp only [benInfo, List.mem_cons, List.not_mem_nil, or_false] at he
    rcases he with rfl | rfl | rfl | rfl | rfl
    · exact .str _
    · exact .int64 _
    · exact .str _
    · exact .int64 _
    · cases ti.isSingle with
      | true => exact .int64 _
      | false =>
        refine .list _ ?_
        intro v hv
        obtain ⟨f, -, rfl⟩ := List.mem_map.mp hv
        refine .dict _ (by simp only [benDict, List.map_cons, List.map_nil]; decide) ?_
        intro e he
        simp only [benDict, List.mem_cons, List.not_mem_nil, or_false] at he
        rcases he with rfl | rfl
        · exact .int64 _
        · refine .list _ ?_
          intro v hv
          obtain ⟨c, -, rfl⟩ := List.mem_map.mp hv
          exact .str c

/-- **C33**, the info-hash: the bytes hashed for the converted dictionary are those of the loaded one if and only if the
dictionary is one of those described in `C33_exact`; with every hash function that has no collision between these two documents
the torrent gets another info-hash otherwise, or `NewTorrent` fails. -/
theorem C33_infohash_exact (d : Dict) (wd b : Bytes) (hm : IsMap (.dict d)) (hb : Encode (.dict d) = (b, none)) (ti : TorInfo)
    (h : FromDict d wd = .ok ti) :
    Encode (.dict (benInfo ti)) = (b, none) ↔
      (∃ name pieces pl len, Same (.dict d) (.dict (singleInfo name pieces pl len))) ∨
      ∃ name pieces pl files, Same (.dict d) (.dict (multiInfo name pieces pl files)) ∧ files.length ≠ 1 ∧
        ∀ f ∈ files, f.2 ≠ [] ∧ ∀ c ∈ f.2, (47 : UInt8) ∉ c := by
  rw [← C33_exact d wd hm ti h]
  constructor
  · intro h'
    exact (C04_unambiguous _ _ b b hm (benInfo_isMap ti) hb h' (List.prefix_refl b)).2
  · intro hs
    rw [← C03_map_order_irrelevant _ _ hs hm (benInfo_isMap ti), hb]

/-- **C33** is false for almost every torrent made by another program: without the key `private` (which is optional) or with any
further key the dictionary is changed. -/
theorem C33_refuted_keys (d : Dict) (wd : Bytes) (ti : TorInfo) (_ : FromDict d wd = .ok ti)
    (hk : ascii "private" ∉ d.map Prod.fst ∨ ∃ k ∈ d.map Prod.fst, k ∉ [ascii "name", ascii "piece length", ascii "pieces",
      ascii "private", ascii "length", ascii "files"]) :
    ¬ Same (.dict d) (.dict (benInfo ti)) := by
  intro hs
  have hks : ∀ k, k ∈ (benInfo ti).map Prod.fst → k ∈ [ascii "name", ascii "piece length", ascii "pieces",
      ascii "private", ascii "length", ascii "files"] := by
    intro k hk
    simp only [benInfo, List.map_cons, List.map_nil, List.mem_cons, List.not_mem_nil, or_false] at hk ⊢
    cases hi : ti.isSingle <;> simp only [hi, if_true, Bool.false_eq_true, if_false] at hk <;> rcases hk with h | h | h | h | h <;>
      simp [h]
  cases hs with
  | dict _ _ h _ =>
    rcases hk with hk | ⟨k, hk, hn⟩
    · exact hk ((h _).mpr (by simp [benInfo]))
    · exact hn (hks k ((h k).mp hk))

/-- the hypotheses: an ordinary torrent, without the key `private` -/
example : ∃ d ti, FromDict d (ascii "/w") = .ok ti ∧ ascii "private" ∉ d.map Prod.fst := by
  obtain ⟨ti, h⟩ := Res.isOk_iff (r := FromDict [(ascii "length", .int64 3), (ascii "name", .str (ascii "a")), (ascii "piece length", .int64 4),
      (ascii "pieces", .str (ascii "AAAAAAAAAAAAAAAAAAAA"))] (ascii "/w")) (by decide +kernel)
  exact ⟨_, ti, h, by decide +kernel⟩

end Verif.Torrent
