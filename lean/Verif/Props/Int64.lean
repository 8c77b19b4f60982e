import Verif.Lemmas.Files64
import Verif.Props.Layout
/-
Property C73: the layout is computed with Go's int64, which wraps around.  `Files64` is the computation with wrap-around, `Files` the one
with exact integers that C21 – C25 and everything built on them talk about.
-/
set_option autoImplicit false

namespace Verif.Files64
open Verif.Files Verif.Layout

theorem makePieceMap_eq (np pl : Nat) (hpl : 0 < pl) (hpl' : pl < 2 ^ 63) (fs : List EntryBase) (hf : ∀ f ∈ fs, 0 ≤ f.length)
    (hlt : total (lens fs) < 2 ^ 63) :
    MakePieceMap (entriesFrom pl 0 fs) np pl (total (lens fs) : Nat) =
      Files.MakePieceMap (entriesFrom pl 0 fs) np pl (total (lens fs) : Nat) := by
  have hl := loop_eq np pl hpl hpl' fs hf 0 0 (by omega) ⟨List.replicate np [], 0, pl, 0⟩ (by simp only; omega) (by simp)
  rw [show wr ⟨List.replicate np [], 0, (pl : Int), 0⟩ = ⟨List.replicate np [], 0, (pl : Int), 0⟩ by
    unfold wr; simp only; rw [w (by decide) (by decide)]] at hl
  unfold MakePieceMap Files.MakePieceMap
  rw [hl]
  have h0 : startPos (lens fs) 0 = 0 := by simp [startPos]
  obtain ⟨a, b⟩ := loop_files hf (np := np) hpl fs 0 rfl ⟨List.replicate np [], 0, pl, 0⟩
    (by rw [h0]; exact at_init _ _ _) (by rw [h0]; omega)
  rw [h0] at a b
  rcases Nat.lt_or_ge (np * pl) (total (lens fs)) with h | h
  · rcases b h with ⟨-, st', h1, h2⟩ | ⟨-, h1⟩
    · rw [h1]
      simp only [mapR, Res.ok_bind, wr]
      rw [h2.counted, w (by omega) (by omega)]
    · rw [h1]; rfl
  · obtain ⟨st', h1, h2⟩ := a h
    rw [h1]
    simp only [mapR, Res.ok_bind, wr]
    rw [h2.counted, w (by omega) (by omega)]

/-- **C73**, partial: for files of together less than 2^63 bytes and a positive piece length that is an int64, the metadata computed with
wrap-around is the exact one — acceptance, layout, piece map, lengths — except that the length of the last piece is reduced
modulo 2^64.  Missing: larger totals. -/
theorem C73_exact_partial (name : Bytes) (pl : Nat) (hpl : 0 < pl) (hpl' : pl < 2 ^ 63) (hashes : Bytes) (files : List EntryBase)
    (hf : ∀ f ∈ files, 0 ≤ f.length) (hlt : total (lens files) < 2 ^ 63) :
    NewTorInfo name pl hashes files =
      (Files.NewTorInfo name pl hashes files >>= fun ti => .ok { ti with lastPieceLen := wrap64 ti.lastPieceLen }) := by
  unfold NewTorInfo Files.NewTorInfo
  by_cases h20 : hashes.length % 20 = 0
  · rw [if_neg (by omega), if_neg (by omega), makeFileList_eq' pl hpl files hf hlt, makeFileList_eq pl hpl files hf, sum64_zero,
      sum_lens files hf, w (x := ((total (lens files) : Nat) : Int)) (by omega) (by omega)]
    simp only [Res.ok_bind]
    rw [makePieceMap_eq _ pl hpl hpl' files hf hlt]
    cases Files.MakePieceMap (entriesFrom pl 0 files) (hashes.length / 20) pl (total (lens files) : Nat) with
    | ok pm =>
      simp only [Res.ok_bind]
      rw [wrap_sub, show ∀ x y z : Int, wrap64 (x - (wrap64 y - z)) = wrap64 (x - (y - z)) by
        intro x y z; unfold wrap64; omega]
    | err e => rfl
    | panic => rfl
    | timeout => rfl
  · rw [if_pos h20, if_pos h20]; rfl

example : ∃ ti, NewTorInfo (ascii "x") (4 : Nat) (List.replicate 80 0) exFiles = .ok ti := by
  rw [C73_exact_partial _ 4 (by decide) (by decide) _ exFiles exFiles_nonneg (by decide)]
  obtain ⟨ti, h⟩ := (C24_accept_iff_partial (ascii "x") 4 (by decide) (List.replicate 80 0) exFiles exFiles_nonneg).mpr (by decide)
  exact ⟨_, by rw [h]; rfl⟩

/-- **C73**, partial: for consistent metadata — the hashes of exactly the needed pieces — of less than 2^63 bytes, nothing is different. -/
theorem C73_consistent_partial (name : Bytes) (pl : Nat) (hpl : 0 < pl) (hpl' : pl < 2 ^ 63) (hashes : Bytes) (files : List EntryBase)
    (hf : ∀ f ∈ files, 0 ≤ f.length) (hlt : total (lens files) < 2 ^ 63) (h20 : 20 ∣ hashes.length)
    (hn : needed (total (lens files)) pl = hashes.length / 20) :
    NewTorInfo name pl hashes files = Files.NewTorInfo name pl hashes files ∧
    CalcNumPieces files pl = .ok (needed (total (lens files)) pl : Nat) := by
  constructor
  · rw [C73_exact_partial name pl hpl hpl' hashes files hf hlt]
    obtain ⟨ti, h, h1, h2, h3, h4⟩ := C25_last_piece name pl hpl hashes files hf h20 hn
    obtain ⟨-, e, -⟩ := C24_fields _ _ _ _ _ h
    rw [h]
    simp only [Res.ok_bind]
    rw [w (x := ti.lastPieceLen) (by omega) (by omega)]
  · unfold CalcNumPieces
    rw [if_neg (by omega), sum64_zero, sum_lens files hf, w (x := ((total (lens files) : Nat) : Int)) (by omega) (by omega)]
    generalize total (lens files) = n at hlt
    have t1 : (n : Int).tdiv pl = ((n / pl : Nat) : Int) := rfl
    have t2 : (n : Int).tmod pl = ((n % pl : Nat) : Int) := rfl
    rw [t1, t2]
    have hd := Nat.div_add_mod n pl
    have hm := Nat.mod_lt n hpl
    have hle := Nat.div_le_self n pl
    have nn := Int.natCast_nonneg (n / pl)
    have hq : needed n pl = if 0 < n % pl then n / pl + 1 else n / pl := by
      rw [needed_eq_iff _ _ _ hpl]
      split
      · rw [Nat.add_mul, Nat.mul_comm (n / pl)]; omega
      · rw [Nat.mul_comm (n / pl)]; omega
    rw [hq, w (x := ((n / pl : Nat) : Int)) (by omega) (by omega)]
    by_cases hc : 0 < n % pl
    · have : n / pl < n := by
        rcases Nat.lt_or_ge (n / pl) n with h | h
        · exact h
        · have : 1 * (n / pl) ≤ pl * (n / pl) := Nat.mul_le_mul_right _ hpl
          omega
      rw [if_pos (by omega), if_pos hc, w (by omega) (by omega)]
      rfl
    · rw [if_neg (by omega), if_neg hc]

example : NewTorInfo (ascii "x") (4 : Nat) (List.replicate 80 0) exFiles = Files.NewTorInfo (ascii "x") (4 : Nat) (List.replicate 80 0) exFiles ∧
    CalcNumPieces exFiles (4 : Nat) = .ok (4 : Nat) :=
  C73_consistent_partial _ 4 (by decide) (by decide) _ exFiles exFiles_nonneg (by decide) (by decide) (by decide)

/-- three files of together 2^64 bytes -/
def exHuge : List EntryBase :=
  [MakeFileEntry (ascii "a") (2 ^ 63 - 1), MakeFileEntry (ascii "b") (2 ^ 63 - 1), MakeFileEntry (ascii "c") 2]

/-- **C73 refuted**: three files whose lengths are int64 values and add up to 2^64 bytes are accepted without a single hash as a torrent
of length 0 without pieces, for every positive piece length; exact arithmetic rejects them. -/
theorem C73_refuted_overflow (name : Bytes) (pl : Nat) (hpl : 0 < pl) :
    (∀ f ∈ exHuge, 0 ≤ f.length ∧ f.length < 2 ^ 63) ∧ total (lens exHuge) = 2 ^ 64 ∧
    (∃ ti, NewTorInfo name pl [] exHuge = .ok ti ∧ ti.length = 0 ∧ ti.numPieces = 0 ∧ ti.flist.length = 3) ∧
    ∀ ti, Files.NewTorInfo name pl [] exHuge ≠ .ok ti := by
  refine ⟨by decide, by decide, ?_, ?_⟩
  · refine ⟨⟨name, pl, [], 0, 0, fileListLoop pl 0 0 exHuge, false, [], wrap64 (pl - wrap64 (wrap64 (0 * pl) - 0))⟩, ?_, rfl, rfl, rfl⟩
    unfold NewTorInfo MakeFileList
    rw [if_neg (by decide), if_neg (by omega)]
    simp only [Res.ok_bind]
    rw [show sum64 0 exHuge = 0 by decide]
    unfold MakePieceMap
    rw [show fileListLoop (pl : Int) 0 0 exHuge = ⟨MakeFileEntry (ascii "a") (2 ^ 63 - 1), 0,
      (endOf pl 0 0 (2 ^ 63 - 1)).1, 0, (endOf pl 0 0 (2 ^ 63 - 1)).2⟩ ::
      fileListLoop pl (nextOf pl (endOf pl 0 0 (2 ^ 63 - 1))).1 (nextOf pl (endOf pl 0 0 (2 ^ 63 - 1))).2
        [MakeFileEntry (ascii "b") (2 ^ 63 - 1), MakeFileEntry (ascii "c") 2] from rfl]
    rw [pieceMapLoop]
    simp [exHuge]
  · intro ti h
    have := (C24_accept_iff_partial name pl hpl [] exHuge (by decide)).mp ⟨ti, h⟩
    obtain ⟨-, h⟩ := this
    rw [needed_le_iff _ _ _ hpl] at h
    rw [show total (lens exHuge) = 2 ^ 64 by decide] at h
    simp at h

end Verif.Files64
