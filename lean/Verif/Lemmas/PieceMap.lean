import Verif.Lemmas.Files
/-
Helper lemmas: what MakePieceMap computes for non-negative file lengths and a positive piece length.
-/
set_option autoImplicit false

namespace Verif.Files
open Verif.Layout

/-- the locations describe consecutive ranges of the concatenated files, from position `a` to position `b` -/
inductive Consec (ls : List Nat) : Nat → List PieceLocation → Nat → Prop
  | nil (a : Nat) : Consec ls a [] a
  | cons (a b k seek read : Nat) (rest : List PieceLocation) :
      startPos ls k + seek = a → k < ls.length → a + read ≤ startPos ls (k + 1) → Consec ls (a + read) rest b →
      Consec ls a (⟨k, ⟨(seek : Int), (read : Int)⟩⟩ :: rest) b

theorem Consec.snoc {ls : List Nat} {a b : Nat} {locs : List PieceLocation} (h : Consec ls a locs b)
    (k seek read : Nat) (h1 : startPos ls k + seek = b) (h0 : k < ls.length) (h2 : b + read ≤ startPos ls (k + 1)) :
    Consec ls a (locs ++ [⟨k, ⟨(seek : Int), (read : Int)⟩⟩]) (b + read) := by
  induction h with
  | nil a => exact .cons _ _ _ _ _ _ h1 h0 h2 (.nil _)
  | cons a b k' s' r' rest e1 e0 e2 _ ih => exact .cons _ _ _ _ _ _ e1 e0 e2 (ih h1 h2)

/-- end of the part of piece `i` that lies before position `P` -/
def covered (pl P i : Nat) : Nat := min (max (i * pl) P) ((i + 1) * pl)

/-- the state of MakePieceMap after all bytes before position `P` have been assigned -/
structure At (ls : List Nat) (pl np P : Nat) (st : PMState) : Prop where
  len : st.pm.length = np
  idx : st.pieceIdx = (P / pl : Nat)
  rem : st.pieceRem = (pl : Int) - (P % pl : Nat)
  counted : st.totalCounted = P
  locs : ∀ i l, st.pm[i]? = some l → Consec ls (i * pl) l (covered pl P i)

theorem covered_other (pl P P' i : Nat) (hi : i ≠ P / pl) (h1 : P ≤ P') (h2 : P' ≤ (P / pl + 1) * pl) :
    covered pl P' i = covered pl P i := by
  have hd := Nat.div_add_mod P pl
  rw [Nat.mul_comm] at hd
  unfold covered
  rcases Nat.lt_or_gt_of_ne hi with h | h
  · have : (i + 1) * pl ≤ (P / pl) * pl := Nat.mul_le_mul_right _ h
    have : i * pl ≤ (i + 1) * pl := Nat.mul_le_mul_right _ (by omega)
    omega
  · have : (P / pl + 1) * pl ≤ i * pl := Nat.mul_le_mul_right _ h
    have : i * pl ≤ (i + 1) * pl := Nat.mul_le_mul_right _ (by omega)
    omega

theorem covered_self (pl P P' : Nat) (h1 : P ≤ P') (h2 : P' ≤ (P / pl + 1) * pl) :
    covered pl P' (P / pl) = P' := by
  have hd := Nat.div_add_mod P pl
  rw [Nat.mul_comm] at hd
  unfold covered
  omega

/-- one iteration appends the location of the bytes `[P, P + read)` -/
theorem at_append {ls : List Nat} {pl np P : Nat} {st : PMState} (h : At ls pl np P st) (k seek read : Nat)
    (l : List PieceLocation) (hl : st.pm[P / pl]? = some l) (h0 : k < ls.length)
    (h1 : startPos ls k + seek = P) (h2 : P + read ≤ startPos ls (k + 1)) (h3 : P + read ≤ (P / pl + 1) * pl) :
    ∀ i l', (st.pm.set (P / pl) (l ++ [⟨k, ⟨(seek : Int), (read : Int)⟩⟩]))[i]? = some l' →
      Consec ls (i * pl) l' (covered pl (P + read) i) := by
  intro i l' hi
  rw [List.getElem?_set] at hi
  by_cases hc : P / pl = i
  · subst hc
    have hlt : P / pl < st.pm.length := (List.getElem?_eq_some_iff.mp hl).1
    rw [if_pos rfl, if_pos hlt] at hi
    cases hi
    have := h.locs (P / pl) l hl
    rw [covered_self pl P P (by omega) (by omega)] at this
    rw [covered_self pl P (P + read) (by omega) h3]
    exact this.snoc k seek read h1 h0 h2
  · rw [if_neg hc] at hi
    have := h.locs i l' hi
    rw [covered_other pl P (P + read) i (fun h => hc h.symm) (by omega) h3]
    exact this

theorem inner_file {ls : List Nat} {pl np : Nat} (hpl : 0 < pl) (k S n : Nat) (f : EntryBase) (hf : f.length = n)
    (hk : k < ls.length) (hS : startPos ls k = S) (hSk : startPos ls (k + 1) = S + n) (fuel P : Nat) (st : PMState)
    (hat : At ls pl np P st) (hSP : S ≤ P) (hPn : P < S + n) (hP : P = S ∨ P = P / pl * pl) (hnp : P / pl < np)
    (hfuel : (S + n - 1) / pl + 2 ≤ fuel + P / pl) :
    (S + n ≤ np * pl → ∃ st', pieceMapInner fuel k (entryAt pl S f) pl st = .ok st' ∧ At ls pl np (S + n) st') ∧
    (np * pl < S + n → pieceMapInner fuel k (entryAt pl S f) pl st = .panic) := by
  induction fuel generalizing P st with
  | zero =>
    exfalso
    have : P / pl ≤ (S + n - 1) / pl := Nat.div_le_div_right (by omega)
    omega
  | succ fuel ih =>
    have hd := Nat.div_add_mod P pl
    have hm := Nat.mod_lt P hpl
    rw [Nat.mul_comm] at hd
    have hq1 : (P / pl + 1) * pl = P / pl * pl + pl := by rw [Nat.add_mul]; omega
    have hpi := pieceInfo_at pl S n P (P / pl) f hpl hf hSP hPn rfl hP
    obtain ⟨l, hl⟩ : ∃ l, st.pm[P / pl]? = some l := ⟨_, List.getElem?_eq_getElem (by rw [hat.len]; exact hnp)⟩
    have happ := at_append hat k (P - S) (min ((P / pl + 1) * pl) (S + n) - P) l hl hk (by omega) (by omega) (by omega)
    rw [pieceMapInner, hat.idx, hpi]
    simp only [Int.toNat_natCast]
    rw [if_neg (Int.not_lt.mpr (Int.natCast_nonneg _)), hl]
    simp only
    rw [hat.rem, hat.counted]
    by_cases hfull : (P / pl + 1) * pl ≤ S + n
    · -- the piece is completed by this file
      rw [if_pos (by omega)]
      have hP' : P + (min ((P / pl + 1) * pl) (S + n) - P) = (P / pl + 1) * pl := by omega
      rw [hP'] at happ
      have hdiv : (P / pl + 1) * pl / pl = P / pl + 1 := Nat.mul_div_cancel _ hpl
      have hmod : (P / pl + 1) * pl % pl = 0 := Nat.mul_mod_left _ _
      have hat' : At ls pl np ((P / pl + 1) * pl)
          ⟨st.pm.set (P / pl) (l ++ [⟨k, ⟨((P - S : Nat) : Int), ((min ((P / pl + 1) * pl) (S + n) - P : Nat) : Int)⟩⟩]),
            ((P / pl : Nat) : Int) + 1, pl, (P : Int) + ((min ((P / pl + 1) * pl) (S + n) - P : Nat) : Int)⟩ := by
        refine ⟨by simpa using hat.len, ?_, ?_, ?_, happ⟩
        · rw [hdiv]; simp
        · rw [hmod]; simp
        · simp only; omega
      by_cases hend : (P / pl + 1) * pl = S + n
      · -- and the file ends with it
        have hdone : pieceMapInner fuel k (entryAt pl S f) pl
          ⟨st.pm.set (P / pl) (l ++ [⟨k, ⟨((P - S : Nat) : Int), ((min ((P / pl + 1) * pl) (S + n) - P : Nat) : Int)⟩⟩]),
            ((P / pl : Nat) : Int) + 1, pl, (P : Int) + ((min ((P / pl + 1) * pl) (S + n) - P : Nat) : Int)⟩ = .ok
          ⟨st.pm.set (P / pl) (l ++ [⟨k, ⟨((P - S : Nat) : Int), ((min ((P / pl + 1) * pl) (S + n) - P : Nat) : Int)⟩⟩]),
            ((P / pl : Nat) : Int) + 1, pl, (P : Int) + ((min ((P / pl + 1) * pl) (S + n) - P : Nat) : Int)⟩ := by
          cases fuel with
          | zero => rfl
          | succ fuel =>
            obtain ⟨e, he⟩ := pieceInfo_after pl S n (P / pl + 1) f hpl hf (by omega) (by omega)
            rw [pieceMapInner]
            simp only
            rw [show ((P / pl : Nat) : Int) + 1 = ((P / pl + 1 : Nat) : Int) by omega, he]
        rw [hdone]
        constructor
        · intro _
          exact ⟨_, rfl, hend ▸ hat'⟩
        · intro hlt
          exfalso
          have : (P / pl + 1) * pl ≤ np * pl := Nat.mul_le_mul_right _ hnp
          omega
      · by_cases hnext : P / pl + 1 < np
        · have := ih ((P / pl + 1) * pl) _ hat' (by omega) (by omega) (.inr (by rw [hdiv])) (by rw [hdiv]; exact hnext)
            (by rw [hdiv]; omega)
          exact this
        · -- no piece left
          have heq : np = P / pl + 1 := by omega
          constructor
          · intro hle
            exfalso
            rw [heq] at hle
            omega
          · intro _
            have hfp : 0 < fuel := by
              have : P / pl + 1 ≤ (S + n - 1) / pl := by
                rw [Nat.le_div_iff_mul_le hpl]; omega
              omega
            obtain ⟨g, rfl⟩ : ∃ g, fuel = g + 1 := ⟨fuel - 1, by omega⟩
            have hpi' := pieceInfo_at pl S n ((P / pl + 1) * pl) (P / pl + 1) f hpl hf (by omega) (by omega) hdiv (.inr rfl)
            rw [pieceMapInner]
            simp only
            rw [show ((P / pl : Nat) : Int) + 1 = ((P / pl + 1 : Nat) : Int) by omega, hpi']
            simp only [Int.toNat_natCast]
            rw [if_neg (Int.not_lt.mpr (Int.natCast_nonneg _)), List.getElem?_eq_none (by rw [List.length_set, hat.len]; omega)]
    · -- the file ends inside of the piece
      rw [if_neg (by omega)]
      have hP' : P + (min ((P / pl + 1) * pl) (S + n) - P) = S + n := by omega
      rw [hP'] at happ
      have hdiv : (S + n) / pl = P / pl := by
        rw [Nat.div_eq_iff hpl]
        omega
      have hmod : (S + n) % pl = S + n - P / pl * pl := by
        have := Nat.div_add_mod (S + n) pl
        rw [hdiv, Nat.mul_comm] at this
        omega
      constructor
      · intro _
        refine ⟨_, rfl, by simpa using hat.len, ?_, ?_, ?_, happ⟩
        · rw [hdiv]
        · rw [hmod]; simp only; omega
        · simp only; omega
      · intro hlt
        exfalso
        have : (P / pl + 1) * pl ≤ np * pl := Nat.mul_le_mul_right _ hnp
        omega

theorem file_step {ls : List Nat} {pl np : Nat} (hpl : 0 < pl) (k S : Nat) (f : EntryBase) (hf : 0 ≤ f.length)
    (hk : k < ls.length) (hS : startPos ls k = S) (hSk : startPos ls (k + 1) = S + f.length.toNat) (st : PMState)
    (hat : At ls pl np S st) (hnp : S / pl < np) :
    (S + f.length.toNat ≤ np * pl →
      ∃ st', pieceMapFile k (entryAt pl S f) pl st = .ok st' ∧ At ls pl np (S + f.length.toNat) st') ∧
    (np * pl < S + f.length.toNat → pieceMapFile k (entryAt pl S f) pl st = .panic) := by
  unfold pieceMapFile
  rw [hat.idx]
  by_cases hn : f.length > 0
  · have he : (entryAt pl S f).endPiece = ((S + f.length.toNat - 1) / pl : Nat) := by
      unfold entryAt; rw [if_pos hn]
    rw [he]
    refine inner_file hpl k S f.length.toNat f (by omega) hk hS hSk _ S st hat (by omega) (by omega) (.inl rfl) hnp ?_
    omega
  · have hz : f.length = 0 := by omega
    have hzn : f.length.toNat = 0 := by omega
    have hd := Nat.div_add_mod S pl
    have hm := Nat.mod_lt S hpl
    rw [Nat.mul_comm] at hd
    have hSlt : S < np * pl := by
      rw [← Nat.div_lt_iff_lt_mul hpl]; exact hnp
    rw [hzn] at hSk ⊢
    rw [Nat.add_zero] at hSk ⊢
    refine ⟨fun _ => ?_, fun h => by omega⟩
    rw [show ∀ x : Nat, x + 2 = (x + 1) + 1 from fun x => rfl, pieceMapInner, hat.idx, pieceInfo_empty pl S f hz]
    by_cases h1 : pl = 1
    · rw [if_pos h1]
      exact ⟨st, rfl, hat⟩
    · rw [if_neg h1]
      obtain ⟨l, hl⟩ : ∃ l, st.pm[S / pl]? = some l := ⟨_, List.getElem?_eq_getElem (by rw [hat.len]; exact hnp)⟩
      have happ := at_append hat k 0 0 l hl hk (by omega) (by omega)
        (by rw [Nat.add_mul]; omega)
      simp only [Int.toNat_natCast]
      rw [if_neg (Int.not_lt.mpr (Int.natCast_nonneg _)), hl]
      simp only
      rw [hat.rem, hat.counted, if_neg (by omega)]
      refine ⟨_, rfl, by simpa using hat.len, rfl, ?_, ?_, happ⟩
      · simp
      · simp

theorem startPos_succ (ls : List Nat) (k : Nat) (x : Nat) (h : ls[k]? = some x) :
    startPos ls (k + 1) = startPos ls k + x := by
  unfold startPos
  rw [List.take_add_one, h]
  simp

theorem startPos_mono (ls : List Nat) {i j : Nat} (h : i ≤ j) : startPos ls i ≤ startPos ls j := by
  obtain ⟨d, rfl⟩ : ∃ d, j = i + d := ⟨j - i, by omega⟩
  clear h
  induction d with
  | zero => exact Nat.le_refl _
  | succ d ih =>
    cases hx : ls[i + d]? with
    | some x => rw [show i + (d + 1) = (i + d) + 1 by omega, startPos_succ ls _ x hx]; omega
    | none =>
      have : ls.length ≤ i + d := by
        rcases Nat.lt_or_ge (i + d) ls.length with h | h
        · rw [List.getElem?_eq_getElem h] at hx; cases hx
        · exact h
      unfold startPos at ih ⊢
      rw [List.take_of_length_le (i := i + (d + 1)) (by omega)]
      rw [List.take_of_length_le (i := i + d) (by omega)] at ih
      exact ih

theorem startPos_length (ls : List Nat) : startPos ls ls.length = total ls := by
  unfold startPos total; rw [List.take_length]

theorem startPos_le_total (ls : List Nat) (k : Nat) : startPos ls k ≤ total ls := by
  rcases Nat.le_total k ls.length with h | h
  · rw [← startPos_length]; exact startPos_mono ls h
  · rw [← startPos_length]; unfold startPos
    rw [List.take_of_length_le h, List.take_length]
    exact Nat.le_refl _

/-- the loop over the files from file `k` on -/
theorem loop_files {files : List EntryBase} (hf : ∀ f ∈ files, 0 ≤ f.length) {pl np : Nat} (hpl : 0 < pl)
    (rest : List EntryBase) (k : Nat) (hrest : files.drop k = rest) (st : PMState)
    (hat : At (lens files) pl np (startPos (lens files) k) st) (hle : startPos (lens files) k ≤ np * pl) :
    (total (lens files) ≤ np * pl →
      ∃ st', pieceMapLoop np pl k (entriesFrom pl (startPos (lens files) k) rest) st = .ok st' ∧
        At (lens files) pl np (total (lens files)) st') ∧
    (np * pl < total (lens files) →
      ((∃ j, k ≤ j ∧ startPos (lens files) j = np * pl) ∧
        ∃ st', pieceMapLoop np pl k (entriesFrom pl (startPos (lens files) k) rest) st = .ok st' ∧
        At (lens files) pl np (np * pl) st') ∨
      ((∃ j, k ≤ j ∧ startPos (lens files) j < np * pl ∧ np * pl < startPos (lens files) (j + 1)) ∧
        pieceMapLoop np pl k (entriesFrom pl (startPos (lens files) k) rest) st = .panic)) := by
  induction rest generalizing k st with
  | nil =>
    have hk : files.length ≤ k := List.drop_eq_nil_iff.mp hrest
    have ht : startPos (lens files) k = total (lens files) := by
      unfold startPos total
      rw [List.take_of_length_le (by simpa [lens] using hk)]
    rw [ht] at hat hle
    constructor
    · intro _
      exact ⟨st, rfl, hat⟩
    · intro h; omega
  | cons f rest ih =>
    have hklt : k < files.length := by
      rcases Nat.lt_or_ge k files.length with h | h
      · exact h
      · rw [List.drop_eq_nil_iff.mpr h] at hrest; cases hrest
    have hfk : files[k]? = some f := by
      have := List.getElem?_drop (xs := files) (i := k) (j := 0)
      rw [hrest] at this
      simpa using this.symm
    have hfmem : f ∈ files := List.mem_of_getElem? hfk
    have hlk : (lens files)[k]? = some f.length.toNat := by
      unfold lens; rw [List.getElem?_map, hfk]; rfl
    have hSk := startPos_succ (lens files) k _ hlk
    have hrest' : files.drop (k + 1) = rest := by
      rw [← List.drop_drop, hrest]; rfl
    rw [entriesFrom, pieceMapLoop, hat.idx]
    by_cases hfull : startPos (lens files) k = np * pl
    · -- all pieces are used up
      have hdiv : startPos (lens files) k / pl = np := by rw [hfull]; exact Nat.mul_div_cancel _ hpl
      rw [if_pos (by rw [hdiv])]
      constructor
      · intro h
        have := startPos_le_total (lens files) k
        have e : total (lens files) = startPos (lens files) k := by omega
        exact ⟨st, rfl, by rw [e]; exact hat⟩
      · intro _
        exact .inl ⟨⟨k, Nat.le_refl _, hfull⟩, st, rfl, by rw [← hfull]; exact hat⟩
    · have hlt : startPos (lens files) k < np * pl := by omega
      have hdiv : startPos (lens files) k / pl < np := by rw [Nat.div_lt_iff_lt_mul hpl]; exact hlt
      rw [if_neg (by omega)]
      obtain ⟨hgood, hbad⟩ := file_step hpl k (startPos (lens files) k) f (hf f hfmem) (by simpa [lens] using hklt) rfl hSk st hat hdiv
      by_cases hfit : startPos (lens files) k + f.length.toNat ≤ np * pl
      · obtain ⟨st1, h1, hat1⟩ := hgood hfit
        rw [h1]
        simp only [Res.ok_bind]
        rw [← hSk] at hat1 hfit ⊢
        obtain ⟨a, b⟩ := ih (k + 1) hrest' st1 hat1 hfit
        refine ⟨a, fun h => ?_⟩
        rcases b h with ⟨⟨j, hj, e⟩, r⟩ | ⟨⟨j, hj, e⟩, r⟩
        · exact .inl ⟨⟨j, by omega, e⟩, r⟩
        · exact .inr ⟨⟨j, by omega, e⟩, r⟩
      · rw [hbad (by omega)]
        constructor
        · intro h
          exfalso
          have := startPos_le_total (lens files) (k + 1)
          omega
        · intro _
          exact .inr ⟨⟨k, Nat.le_refl _, hlt, by omega⟩, rfl⟩

theorem at_init (ls : List Nat) (pl np : Nat) : At ls pl np 0 ⟨List.replicate np [], 0, pl, 0⟩ := by
  refine ⟨by simp, by simp, by simp, rfl, ?_⟩
  intro i l h
  have hl : l = [] := by
    rw [List.getElem?_replicate] at h
    split at h
    · cases h; rfl
    · cases h
  subst hl
  have : covered pl 0 i = i * pl := by
    unfold covered
    have : i * pl ≤ (i + 1) * pl := Nat.mul_le_mul_right _ (by omega)
    omega
  rw [this]
  exact .nil _

theorem sum_lens (files : List EntryBase) (hf : ∀ f ∈ files, 0 ≤ f.length) :
    (files.map EntryBase.length).sum = (total (lens files) : Nat) := by
  induction files with
  | nil => rfl
  | cons f fs ih =>
    have h := hf f (by simp)
    have ih := ih (fun g hg => hf g (by simp [hg]))
    simp only [lens, List.map_cons, List.sum_cons, total] at ih ⊢
    rw [ih]
    omega

/-- everything about MakePieceMap for non-negative lengths -/
theorem makePieceMap_spec {files : List EntryBase} (hf : ∀ f ∈ files, 0 ≤ f.length) {pl : Nat} (np : Nat) (hpl : 0 < pl) :
    (total (lens files) ≤ np * pl →
      ∃ pm, MakePieceMap (entriesFrom pl 0 files) np pl (total (lens files) : Nat) = .ok pm ∧ pm.length = np ∧
        ∀ i l, pm[i]? = some l → Consec (lens files) (i * pl) l (covered pl (total (lens files)) i)) ∧
    (np * pl < total (lens files) →
      ((∃ j, startPos (lens files) j = np * pl) ∧
        MakePieceMap (entriesFrom pl 0 files) np pl (total (lens files) : Nat) = .err .other) ∨
      ((∃ j, startPos (lens files) j < np * pl ∧ np * pl < startPos (lens files) (j + 1)) ∧
        MakePieceMap (entriesFrom pl 0 files) np pl (total (lens files) : Nat) = .panic)) := by
  have h0 : startPos (lens files) 0 = 0 := by simp [startPos]
  obtain ⟨a, b⟩ := loop_files hf (np := np) hpl files 0 rfl ⟨List.replicate np [], 0, pl, 0⟩
    (by rw [h0]; exact at_init _ _ _) (by rw [h0]; omega)
  rw [h0] at a b
  constructor
  · intro h
    obtain ⟨st', h1, h2⟩ := a h
    refine ⟨st'.pm, ?_, h2.len, h2.locs⟩
    unfold MakePieceMap
    rw [h1]
    simp only [Res.ok_bind]
    rw [if_neg (by rw [h2.counted]; simp)]
  · intro h
    rcases b h with ⟨⟨j, -, e⟩, st', h1, h2⟩ | ⟨⟨j, -, e⟩, h1⟩
    · refine .inl ⟨⟨j, e⟩, ?_⟩
      unfold MakePieceMap
      rw [h1]
      simp only [Res.ok_bind]
      rw [if_pos (by rw [h2.counted]; omega)]
    · refine .inr ⟨⟨j, e⟩, ?_⟩
      unfold MakePieceMap
      rw [h1]
      rfl

end Verif.Files
