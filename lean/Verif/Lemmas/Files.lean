import Verif.Model.Files
import Verif.Spec.Layout
/-
Helper lemmas for the layout properties.
-/
set_option autoImplicit false

namespace Verif.Files
open Verif.Layout

/-- lengths of the files as natural numbers -/
def lens (files : List EntryBase) : List Nat := files.map fun f => f.length.toNat

/-- the entry of file `f` when it starts at position `S` -/
def entryAt (pl S : Nat) (f : EntryBase) : Entry :=
  if f.length > 0 then
    ⟨f, (S / pl : Nat), ((S + f.length.toNat - 1) / pl : Nat), (S % pl : Nat), ((S + f.length.toNat - 1) % pl : Nat)⟩
  else if pl = 1 then ⟨f, (S / pl : Nat), ((S / pl : Nat) : Int) - 1, (S % pl : Nat), 0⟩
  else ⟨f, (S / pl : Nat), (S / pl : Nat), (S % pl : Nat), ((S % pl : Nat) : Int) - 1⟩

theorem div_mod_add (pl S m : Nat) (hpl : 0 < pl) :
    (S + m) / pl = S / pl + m / pl + (S % pl + m % pl) / pl ∧ (S + m) % pl = (S % pl + m % pl) % pl := by
  constructor
  · conv => lhs; rw [← Nat.div_add_mod S pl, ← Nat.div_add_mod m pl]
    rw [show pl * (S / pl) + S % pl + (pl * (m / pl) + m % pl) = (S % pl + m % pl) + pl * (S / pl + m / pl) by
      rw [Nat.mul_add]; omega, Nat.add_mul_div_left _ _ hpl]
    omega
  · rw [Nat.add_mod]

theorem endOf_pos (pl S n : Nat) (hpl : 0 < pl) (hn : 0 < n) :
    endOf pl (S / pl : Nat) (S % pl : Nat) n = ((((S + n - 1) / pl : Nat) : Int), (((S + n - 1) % pl : Nat) : Int)) := by
  obtain ⟨m, rfl⟩ : ∃ m, n = m + 1 := ⟨n - 1, by omega⟩
  obtain ⟨h1, h2⟩ := div_mod_add pl S m hpl
  have e : S + (m + 1) - 1 = S + m := by omega
  have em : ((m + 1 : Nat) : Int) - 1 = (m : Int) := by omega
  rw [e, h1, h2]
  unfold endOf
  rw [em]
  have t1 : (m : Int).tdiv pl = ((m / pl : Nat) : Int) := rfl
  have t2 : (m : Int).tmod pl = ((m % pl : Nat) : Int) := rfl
  rw [t1, t2]
  by_cases hc : S % pl + m % pl < pl
  · rw [if_neg (by omega), Nat.div_eq_of_lt hc, Nat.mod_eq_of_lt hc]
    simp
  · rw [if_pos (by omega)]
    have t3 : (((S % pl : Nat) : Int) + ((m % pl : Nat) : Int)) = ((S % pl + m % pl : Nat) : Int) := by omega
    rw [t3]
    have t4 : ((S % pl + m % pl : Nat) : Int).tdiv pl = (((S % pl + m % pl) / pl : Nat) : Int) := rfl
    have t5 : ((S % pl + m % pl : Nat) : Int).tmod pl = (((S % pl + m % pl) % pl : Nat) : Int) := rfl
    rw [t4, t5]
    simp

theorem nextOf_pos (pl E : Nat) (hpl : 0 < pl) :
    nextOf pl (((E / pl : Nat) : Int), ((E % pl : Nat) : Int)) = ((((E + 1) / pl : Nat) : Int), (((E + 1) % pl : Nat) : Int)) := by
  unfold nextOf
  simp only
  have hlt := Nat.mod_lt E hpl
  have hdm := Nat.div_add_mod E pl
  by_cases h : E % pl + 1 = pl
  · rw [if_pos (by omega)]
    have e : E + 1 = pl * (E / pl + 1) := by rw [Nat.mul_add]; omega
    rw [e, Nat.mul_div_cancel_left _ hpl, Nat.mul_mod_right]
    simp
  · rw [if_neg (by omega)]
    have e : E + 1 = (E % pl + 1) + pl * (E / pl) := by omega
    have d : (E + 1) / pl = E / pl := by
      rw [e, Nat.add_mul_div_left _ _ hpl, Nat.div_eq_of_lt (by omega)]; omega
    have m : (E + 1) % pl = E % pl + 1 := by
      rw [e, Nat.add_mul_mod_self_left, Nat.mod_eq_of_lt (by omega)]
    rw [d, m]; simp

theorem tdiv_neg_one (pl : Nat) (h : 2 ≤ pl) : (-1 : Int).tdiv pl = 0 ∧ (-1 : Int).tmod pl = -1 := by
  have h1 : (-1 : Int).tdiv pl = 0 := by
    rw [Int.neg_tdiv]
    have : (1 : Int).tdiv pl = ((1 / pl : Nat) : Int) := rfl
    rw [this, Nat.div_eq_of_lt (by omega)]; rfl
  refine ⟨h1, ?_⟩
  have := Int.mul_tdiv_add_tmod (-1) pl
  rw [h1] at this
  omega

theorem endOf_zero (pl S : Nat) (hpl : 0 < pl) :
    endOf pl (S / pl : Nat) (S % pl : Nat) 0 =
      if pl = 1 then (((S / pl : Nat) : Int) - 1, 0) else (((S / pl : Nat) : Int), ((S % pl : Nat) : Int) - 1) := by
  unfold endOf
  have hlt := Nat.mod_lt S hpl
  by_cases h1 : pl = 1
  · subst h1
    have : S % 1 = 0 := Nat.mod_one S
    rw [this]
    rfl
  · obtain ⟨a, b⟩ := tdiv_neg_one pl (by omega)
    rw [show (0 : Int) - 1 = -1 by rfl, a, b, if_neg (by omega), if_neg h1]
    simp
    omega

theorem nextOf_zero (pl S : Nat) (hpl : 0 < pl) :
    nextOf pl (if pl = 1 then (((S / pl : Nat) : Int) - 1, 0) else (((S / pl : Nat) : Int), ((S % pl : Nat) : Int) - 1)) =
      (((S / pl : Nat) : Int), ((S % pl : Nat) : Int)) := by
  unfold nextOf
  have hlt := Nat.mod_lt S hpl
  by_cases h1 : pl = 1
  · subst h1
    have : S % 1 = 0 := Nat.mod_one S
    rw [this]
    simp
  · rw [if_neg h1]
    simp only
    rw [if_neg (by omega)]
    simp

theorem fileListLoop_cons (pl S : Nat) (hpl : 0 < pl) (f : EntryBase) (es : List EntryBase) (hf : 0 ≤ f.length) :
    fileListLoop pl (S / pl : Nat) (S % pl : Nat) (f :: es) =
      entryAt pl S f :: fileListLoop pl ((S + f.length.toNat) / pl : Nat) ((S + f.length.toNat) % pl : Nat) es := by
  rw [fileListLoop]
  unfold entryAt
  by_cases hn : f.length > 0
  · have e : f.length = ((f.length.toNat : Nat) : Int) := by omega
    have h1 : endOf pl (S / pl : Nat) (S % pl : Nat) f.length =
        ((((S + f.length.toNat - 1) / pl : Nat) : Int), (((S + f.length.toNat - 1) % pl : Nat) : Int)) := by
      rw [show endOf pl (S / pl : Nat) (S % pl : Nat) f.length = endOf pl (S / pl : Nat) (S % pl : Nat) ((f.length.toNat : Nat) : Int) by rw [← e]]
      exact endOf_pos pl S f.length.toNat hpl (by omega)
    have h2 := nextOf_pos pl (S + f.length.toNat - 1) hpl
    rw [show S + f.length.toNat - 1 + 1 = S + f.length.toNat by omega] at h2
    rw [h1, h2, if_pos hn]
  · have e : f.length = 0 := by omega
    rw [e, endOf_zero pl S hpl, nextOf_zero pl S hpl]
    simp only [Int.lt_irrefl, gt_iff_lt, if_false]
    by_cases h1 : pl = 1
    · simp [h1]
    · simp [h1]

/-- the file list of a list of files that starts at position `S` -/
def entriesFrom (pl : Nat) : Nat → List EntryBase → List Entry
  | _, [] => []
  | S, f :: fs => entryAt pl S f :: entriesFrom pl (S + f.length.toNat) fs

theorem fileListLoop_eq (pl S : Nat) (hpl : 0 < pl) (fs : List EntryBase) (hf : ∀ f ∈ fs, 0 ≤ f.length) :
    fileListLoop pl (S / pl : Nat) (S % pl : Nat) fs = entriesFrom pl S fs := by
  induction fs generalizing S with
  | nil => rfl
  | cons f fs ih =>
    rw [fileListLoop_cons pl S hpl f fs (hf f (by simp)), ih _ (fun g hg => hf g (by simp [hg])), entriesFrom]

theorem makeFileList_eq (pl : Nat) (hpl : 0 < pl) (fs : List EntryBase) (hf : ∀ f ∈ fs, 0 ≤ f.length) :
    MakeFileList fs pl = .ok (entriesFrom pl 0 fs) := by
  unfold MakeFileList
  rw [if_neg (by omega)]
  have := fileListLoop_eq pl 0 hpl fs hf
  simp at this
  rw [this]

theorem entriesFrom_length (pl S : Nat) (fs : List EntryBase) : (entriesFrom pl S fs).length = fs.length := by
  induction fs generalizing S with
  | nil => rfl
  | cons f fs ih => simp [entriesFrom, ih]

theorem entriesFrom_get (pl S : Nat) (fs : List EntryBase) (k : Nat) :
    (entriesFrom pl S fs)[k]? = (fs[k]?).map fun f => entryAt pl (S + startPos (lens fs) k) f := by
  induction fs generalizing S k with
  | nil => rfl
  | cons f fs ih =>
    cases k with
    | zero => simp [entriesFrom, startPos, lens]
    | succ k =>
      rw [entriesFrom, List.getElem?_cons_succ, List.getElem?_cons_succ, ih]
      congr 1
      funext g
      congr 1
      simp [startPos, lens]; omega

/-! ### PieceInfo -/

theorem seekLoop_eq (pl : Int) (k : Nat) (s o : Int) :
    seekLoop pl k (s, o) = if k = 0 then (s, o) else (s + k * pl - o, 0) := by
  induction k generalizing s o with
  | zero => rfl
  | succ k ih =>
    rw [seekLoop, ih]
    simp only
    split
    · rename_i h; subst h; simp; omega
    · rw [if_neg (by omega)]
      simp only [Prod.mk.injEq, and_true]
      rw [show ((k + 1 : Nat) : Int) * pl = k * pl + pl by rw [Int.natCast_add, Int.add_mul]; simp]
      omega

/-- inside of a non-empty file: the part of the file that lies in piece `q` from position `P` on, where `P` is the
start of the file or the start of the piece -/
theorem pieceInfo_at (pl S n P q : Nat) (f : EntryBase) (hpl : 0 < pl) (hf : f.length = n) (hSP : S ≤ P) (hPn : P < S + n)
    (hq : P / pl = q) (hP : P = S ∨ P = q * pl) :
    (entryAt pl S f).PieceInfo q pl =
      .ok ⟨((P - S : Nat) : Int), ((min ((q + 1) * pl) (S + n) - P : Nat) : Int)⟩ := by
  have hn : f.length > 0 := by omega
  have hnn : f.length.toNat = n := by omega
  unfold entryAt
  rw [if_pos hn, hnn]
  unfold Entry.PieceInfo
  simp only
  have hdS := Nat.div_add_mod S pl
  have hmS := Nat.mod_lt S hpl
  have hdE := Nat.div_add_mod (S + n - 1) pl
  have hmE := Nat.mod_lt (S + n - 1) hpl
  have hdP := Nat.div_add_mod P pl
  have hmP := Nat.mod_lt P hpl
  rw [hq] at hdP
  have hsq : S / pl ≤ q := by rw [← hq]; exact Nat.div_le_div_right hSP
  have hqe : q ≤ (S + n - 1) / pl := by rw [← hq]; exact Nat.div_le_div_right (by omega)
  rw [if_neg (by omega), seekLoop_eq]
  have hk : (((q : Int) - ((S / pl : Nat) : Int)).toNat) = q - S / pl := by omega
  rw [hk]
  have hq1 : (q + 1) * pl = pl * q + pl := by rw [Nat.add_mul, Nat.mul_comm]; omega
  have hqm : q * pl = pl * q := Nat.mul_comm _ _
  -- the state after the seek loop
  have hst : (if q - S / pl = 0 then ((0 : Int), ((S % pl : Nat) : Int))
      else (0 + ((q - S / pl : Nat) : Int) * pl - ((S % pl : Nat) : Int), 0)) =
      (((P - S : Nat) : Int), ((P - pl * q : Nat) : Int)) := by
    by_cases h0 : q - S / pl = 0
    · rw [if_pos h0]
      have : q = S / pl := by omega
      rw [← this] at hdS
      simp only [Prod.mk.injEq]
      omega
    · rw [if_neg h0]
      have hPq : P = q * pl := by
        rcases hP with h | h
        · exact absurd (by rw [← hq, h]; omega) h0
        · exact h
      have hmul : (q - S / pl) * pl = pl * q - pl * (S / pl) := by
        rw [Nat.sub_mul, Nat.mul_comm q, Nat.mul_comm (S / pl)]
      have hle : pl * (S / pl) ≤ pl * q := Nat.mul_le_mul_left _ hsq
      have hcast : ((q - S / pl : Nat) : Int) * (pl : Int) = (((q - S / pl) * pl : Nat) : Int) := by
        rw [Int.natCast_mul]
      rw [hcast, hmul]
      simp only [Prod.mk.injEq]
      omega
  rw [hst]
  simp only
  by_cases hlt : q < (S + n - 1) / pl
  · have hle : pl * (q + 1) ≤ pl * ((S + n - 1) / pl) := Nat.mul_le_mul_left _ hlt
    rw [Nat.mul_comm, hq1] at hle
    rw [if_pos (by omega)]
    congr 2
    omega
  · have he : q = (S + n - 1) / pl := by omega
    rw [← he] at hdE
    rw [if_neg (by omega)]
    congr 2
    omega

theorem pieceInfo_after (pl S n q : Nat) (f : EntryBase) (hpl : 0 < pl) (hf : f.length = n) (hn : 0 < n)
    (hq : S + n ≤ q * pl) : ∃ e, (entryAt pl S f).PieceInfo q pl = .err e := by
  have hnn : f.length.toNat = n := by omega
  unfold entryAt
  rw [if_pos (by omega), hnn]
  unfold Entry.PieceInfo
  simp only
  have : (S + n - 1) / pl < q := by rw [Nat.div_lt_iff_lt_mul hpl]; omega
  rw [if_pos (by omega)]
  exact ⟨_, rfl⟩

theorem pieceInfo_empty (pl S : Nat) (f : EntryBase) (hf : f.length = 0) :
    (entryAt pl S f).PieceInfo (S / pl : Nat) pl = if pl = 1 then .err .other else .ok ⟨0, 0⟩ := by
  unfold entryAt
  rw [if_neg (by omega)]
  by_cases h1 : pl = 1
  · rw [if_pos h1, if_pos h1]
    unfold Entry.PieceInfo
    rw [if_pos]
    simp only
    omega
  · rw [if_neg h1, if_neg h1]
    unfold Entry.PieceInfo
    simp only
    rw [if_neg (by omega), if_neg (by omega), seekLoop_eq, if_pos (by omega)]
    congr 2
    simp only
    omega

end Verif.Files
