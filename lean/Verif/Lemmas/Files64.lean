import Verif.Model.Files64
import Verif.Lemmas.PieceMap
/-
Helper lemmas: the int64 computations agree with the unbounded ones as long as the total length is below 2^63.
-/
set_option autoImplicit false

namespace Verif.Files64
open Verif.Files Verif.Layout

theorem w {x : Int} (h1 : -2 ^ 63 ≤ x) (h2 : x < 2 ^ 63) : wrap64 x = x := wrap64_of_in ⟨h1, h2⟩

theorem wrap_add (x y : Int) : wrap64 (wrap64 x + y) = wrap64 (x + y) := by
  unfold wrap64; omega

theorem wrap_sub (x y : Int) : wrap64 (x - wrap64 y) = wrap64 (x - y) := by
  unfold wrap64; omega

theorem wrap_sub' (x y : Int) : wrap64 (wrap64 x - y) = wrap64 (x - y) := by
  unfold wrap64; omega

theorem sum64_eq (files : List EntryBase) (l : Int) : sum64 (wrap64 l) files = wrap64 (l + (files.map EntryBase.length).sum) := by
  induction files generalizing l with
  | nil => simp [sum64]
  | cons f fs ih =>
    rw [sum64, wrap_add, ih]
    simp only [List.map_cons, List.sum_cons]
    congr 1; omega

theorem sum64_zero (files : List EntryBase) : sum64 0 files = wrap64 ((files.map EntryBase.length).sum) := by
  have := sum64_eq files 0
  rw [show wrap64 0 = 0 by decide] at this
  rw [this]; simp

theorem tdiv_tmod_bounds (n pl : Nat) (hpl : 0 < pl) :
    -1 ≤ ((n : Int) - 1).tdiv pl ∧ ((n : Int) - 1).tdiv pl ≤ n ∧ -1 ≤ ((n : Int) - 1).tmod pl ∧ ((n : Int) - 1).tmod pl ≤ n := by
  cases n with
  | zero =>
    by_cases h1 : pl = 1
    · subst h1; decide
    · obtain ⟨a, b⟩ := tdiv_neg_one pl (by omega)
      rw [show ((0 : Nat) : Int) - 1 = -1 by rfl, a, b]
      omega
  | succ m =>
    rw [show ((m + 1 : Nat) : Int) - 1 = (m : Int) by omega]
    have t1 : (m : Int).tdiv pl = ((m / pl : Nat) : Int) := rfl
    have t2 : (m : Int).tmod pl = ((m % pl : Nat) : Int) := rfl
    rw [t1, t2]
    have := Nat.div_le_self m pl
    have := Nat.mod_le m pl
    have := Int.natCast_nonneg (m / pl)
    have := Int.natCast_nonneg (m % pl)
    omega

theorem endOf_eq (pl S n : Nat) (hpl : 0 < pl) (hlt : S + n < 2 ^ 63) :
    endOf pl (S / pl : Nat) (S % pl : Nat) n = Files.endOf pl (S / pl : Nat) (S % pl : Nat) n := by
  obtain ⟨b1, b2, b3, b4⟩ := tdiv_tmod_bounds n pl hpl
  have hd := Nat.div_le_self S pl
  have hm := Nat.mod_le S pl
  have hsum := Nat.div_add_mod S pl
  -- quotient plus remainder does not exceed the number
  have hqr : S / pl + S % pl ≤ S := by
    have : 1 * (S / pl) ≤ pl * (S / pl) := Nat.mul_le_mul_right _ hpl
    omega
  have nn1 := Int.natCast_nonneg (S / pl)
  have nn2 := Int.natCast_nonneg (S % pl)
  have nn3 := Int.natCast_nonneg ((S + n - 1) / pl)
  unfold endOf Files.endOf
  rw [w (x := (n : Int) - 1) (by omega) (by omega), w (x := ((n : Int) - 1).tdiv pl) (by omega) (by omega),
    w (x := ((S % pl : Nat) : Int) + ((n : Int) - 1).tmod pl) (by omega) (by omega),
    w (x := ((S / pl : Nat) : Int) + ((n : Int) - 1).tdiv pl) (by omega) (by omega)]
  by_cases hc : ((S % pl : Nat) : Int) + ((n : Int) - 1).tmod pl ≥ pl
  · rw [if_pos hc, if_pos hc]
    have hn : 0 < n := by
      rcases Nat.eq_zero_or_pos n with h | h
      · subst h
        exfalso
        have hml := Nat.mod_lt S hpl
        by_cases h1 : pl = 1
        · subst h1
          have : S % 1 = 0 := Nat.mod_one S
          rw [this] at hc
          exact absurd hc (by decide)
        · obtain ⟨a, b⟩ := tdiv_neg_one pl (by omega)
          rw [show ((0 : Nat) : Int) - 1 = -1 by rfl, b] at hc
          omega
      · exact h
    have he := endOf_pos pl S n hpl hn
    unfold Files.endOf at he
    rw [if_pos hc] at he
    have h1 := congrArg Prod.fst he
    simp only at h1
    have hle := Nat.div_le_self (S + n - 1) pl
    have hx : (((S % pl : Nat) : Int) + ((n : Int) - 1).tmod pl).tdiv pl =
        ((S + n - 1) / pl : Nat) - (((S / pl : Nat) : Int) + ((n : Int) - 1).tdiv pl) := by omega
    have hb0 : 0 ≤ ((n : Int) - 1).tdiv pl := by
      obtain ⟨m, rfl⟩ : ∃ m, n = m + 1 := ⟨n - 1, by omega⟩
      rw [show ((m + 1 : Nat) : Int) - 1 = (m : Int) by omega]
      exact Int.natCast_nonneg (m / pl)
    have hnn : 0 ≤ (((S % pl : Nat) : Int) + ((n : Int) - 1).tmod pl).tdiv pl :=
      Int.tdiv_nonneg (by omega) (by omega)
    rw [w (x := (((S % pl : Nat) : Int) + ((n : Int) - 1).tmod pl).tdiv pl) (by omega) (by omega), w (by omega) (by omega)]
  · rw [if_neg hc, if_neg hc]

theorem nextOf_eq (pl : Nat) (e : Int × Int) (h1 : -2 ^ 62 ≤ e.1) (h2 : e.1 < 2 ^ 63 - 1) (h3 : -2 ^ 62 ≤ e.2) (h4 : e.2 < 2 ^ 63 - 1) :
    nextOf pl e = Files.nextOf pl e := by
  unfold nextOf Files.nextOf
  rw [w (x := e.2 + 1) (by omega) (by omega), w (x := e.1 + 1) (by omega) (by omega)]

theorem entryAt_ends (pl S : Nat) (f : EntryBase) (hpl : 0 < pl) (hf : 0 ≤ f.length) :
    endOf pl (S / pl : Nat) (S % pl : Nat) f.length = Files.endOf pl (S / pl : Nat) (S % pl : Nat) f.length →
    (Files.endOf pl (S / pl : Nat) (S % pl : Nat) f.length).1 = (entryAt pl S f).endPiece ∧
    (Files.endOf pl (S / pl : Nat) (S % pl : Nat) f.length).2 = (entryAt pl S f).endOff := by
  intro _
  have h := fileListLoop_cons pl S hpl f [] hf
  rw [Files.fileListLoop] at h
  simp only [Files.fileListLoop, List.cons.injEq, and_true] at h
  exact ⟨congrArg Entry.endPiece h, congrArg Entry.endOff h⟩

theorem entryAt_bounds (pl S : Nat) (f : EntryBase) (hpl : 0 < pl) (hf : 0 ≤ f.length) (hlt : S + f.length.toNat < 2 ^ 63) :
    -1 ≤ (entryAt pl S f).endPiece ∧ (entryAt pl S f).endPiece < 2 ^ 63 - 1 ∧ -1 ≤ (entryAt pl S f).endOff ∧
      (entryAt pl S f).endOff < 2 ^ 63 - 1 := by
  have hd := Nat.div_le_self S pl
  have hm := Nat.mod_le S pl
  have nn1 := Int.natCast_nonneg (S / pl)
  have nn2 := Int.natCast_nonneg (S % pl)
  have nn3 := Int.natCast_nonneg ((S + f.length.toNat - 1) / pl)
  have nn4 := Int.natCast_nonneg ((S + f.length.toNat - 1) % pl)
  unfold entryAt
  split
  · have hd' := Nat.div_le_self (S + f.length.toNat - 1) pl
    have hm' := Nat.mod_le (S + f.length.toNat - 1) pl
    simp only; omega
  · split
    · simp only
      omega
    · simp only
      have : S / pl < 2 ^ 63 - 1 := by
        have : S / pl ≤ S / 2 := Nat.div_le_div_left (by omega) (by omega)
        omega
      omega

theorem fileListLoop_eq' (pl : Nat) (hpl : 0 < pl) (fs : List EntryBase) (hf : ∀ f ∈ fs, 0 ≤ f.length) (S : Nat)
    (hlt : S + total (lens fs) < 2 ^ 63) :
    fileListLoop pl (S / pl : Nat) (S % pl : Nat) fs = Files.fileListLoop pl (S / pl : Nat) (S % pl : Nat) fs := by
  induction fs generalizing S with
  | nil => rfl
  | cons f fs ih =>
    have hf0 := hf f (by simp)
    have ht : total (lens (f :: fs)) = f.length.toNat + total (lens fs) := by simp [lens, total]
    have e : f.length = ((f.length.toNat : Nat) : Int) := by omega
    have he : endOf pl (S / pl : Nat) (S % pl : Nat) f.length = Files.endOf pl (S / pl : Nat) (S % pl : Nat) f.length := by
      rw [e]; exact endOf_eq pl S f.length.toNat hpl (by omega)
    obtain ⟨e1, e2⟩ := entryAt_ends pl S f hpl hf0 he
    obtain ⟨b1, b2, b3, b4⟩ := entryAt_bounds pl S f hpl hf0 (by omega)
    have hn : nextOf pl (Files.endOf pl (S / pl : Nat) (S % pl : Nat) f.length) =
        Files.nextOf pl (Files.endOf pl (S / pl : Nat) (S % pl : Nat) f.length) :=
      nextOf_eq pl _ (by omega) (by omega) (by omega) (by omega)
    have hnext : Files.nextOf pl (Files.endOf pl (S / pl : Nat) (S % pl : Nat) f.length) =
        ((((S + f.length.toNat) / pl : Nat) : Int), (((S + f.length.toNat) % pl : Nat) : Int)) := by
      by_cases h0 : f.length = 0
      · rw [h0, endOf_zero pl S hpl, nextOf_zero pl S hpl]; simp
      · have := endOf_pos pl S f.length.toNat hpl (by omega)
        rw [← e] at this
        rw [this]
        have h2 := nextOf_pos pl (S + f.length.toNat - 1) hpl
        rwa [show S + f.length.toNat - 1 + 1 = S + f.length.toNat by omega] at h2
    rw [fileListLoop, Files.fileListLoop, he, hn, hnext]
    simp only
    rw [ih (fun g hg => hf g (by simp [hg])) (S + f.length.toNat) (by omega)]

theorem makeFileList_eq' (pl : Nat) (hpl : 0 < pl) (fs : List EntryBase) (hf : ∀ f ∈ fs, 0 ≤ f.length)
    (hlt : total (lens fs) < 2 ^ 63) : MakeFileList fs pl = Files.MakeFileList fs pl := by
  unfold MakeFileList Files.MakeFileList
  have := fileListLoop_eq' pl hpl fs hf 0 (by omega)
  simp only [Nat.zero_div, Nat.zero_mod] at this
  rw [show ((0 : Nat) : Int) = 0 from rfl] at this
  rw [this]

theorem seekLoop_eq' (pl : Nat) (k : Nat) (s o : Int) (ho : 0 ≤ o) (ho' : o ≤ pl) (hs : 0 ≤ s) (hpl : pl < 2 ^ 63)
    (h : 0 < k → s + k * pl - o < 2 ^ 63) : seekLoop pl k (s, o) = Files.seekLoop pl k (s, o) := by
  induction k generalizing s o with
  | zero => rfl
  | succ k ih =>
    have h := h (by omega)
    have hk : ((k + 1 : Nat) : Int) * pl = k * pl + pl := by rw [Int.natCast_add, Int.add_mul]; simp
    have hkn : 0 ≤ (k : Int) * pl := Int.mul_nonneg (Int.natCast_nonneg _) (Int.natCast_nonneg _)
    rw [hk] at h
    rw [seekLoop, Files.seekLoop]
    simp only
    rw [w (x := (pl : Int) - o) (by omega) (by omega), w (x := s + ((pl : Int) - o)) (by omega) (by omega)]
    exact ih _ _ (by omega) (by omega) (by omega) (by intro _; omega)

theorem pieceInfo_eq (pl S : Nat) (f : EntryBase) (q : Int) (hpl : 0 < pl) (hpl' : pl < 2 ^ 63) (hf : 0 ≤ f.length)
    (hlt : S + f.length.toNat < 2 ^ 63) :
    PieceInfo (entryAt pl S f) q pl = (entryAt pl S f).PieceInfo q pl ∧
    ∀ p, (entryAt pl S f).PieceInfo q pl = .ok p → 0 ≤ p.readAmnt ∧ p.readAmnt < 2 ^ 63 := by
  unfold PieceInfo Entry.PieceInfo
  by_cases hr : q < (entryAt pl S f).startPiece ∨ q > (entryAt pl S f).endPiece
  · rw [if_pos hr, if_pos hr]
    exact ⟨rfl, by intro p h; cases h⟩
  · rw [if_neg hr, if_neg hr]
    simp only
    have hdS := Nat.div_add_mod S pl
    have hmS := Nat.mod_lt S hpl
    have nn1 := Int.natCast_nonneg (S / pl)
    have nn2 := Int.natCast_nonneg (S % pl)
    have nn3 := Int.natCast_nonneg ((S + f.length.toNat - 1) / pl)
    have nn4 := Int.natCast_nonneg ((S + f.length.toNat - 1) % pl)
    by_cases hn : f.length > 0
    · have hs : (entryAt pl S f).startPiece = (S / pl : Nat) := by unfold entryAt; rw [if_pos hn]
      have hso : (entryAt pl S f).startOff = (S % pl : Nat) := by unfold entryAt; rw [if_pos hn]
      have he : (entryAt pl S f).endPiece = ((S + f.length.toNat - 1) / pl : Nat) := by unfold entryAt; rw [if_pos hn]
      have heo : (entryAt pl S f).endOff = ((S + f.length.toNat - 1) % pl : Nat) := by unfold entryAt; rw [if_pos hn]
      rw [hs, he] at hr
      rw [hs, hso, he, heo]
      have hdE := Nat.div_add_mod (S + f.length.toNat - 1) pl
      have hmE := Nat.mod_lt (S + f.length.toNat - 1) hpl
      obtain ⟨Q, rfl⟩ : ∃ Q : Nat, q = Q := ⟨q.toNat, by omega⟩
      have hk : ((Q : Int) - ((S / pl : Nat) : Int)).toNat = Q - S / pl := by omega
      have hQe : pl * Q ≤ pl * ((S + f.length.toNat - 1) / pl) := Nat.mul_le_mul_left _ (by omega)
      have hmul : (Q - S / pl) * pl = pl * Q - pl * (S / pl) := by
        rw [Nat.sub_mul, Nat.mul_comm Q, Nat.mul_comm (S / pl)]
      have hle : pl * (S / pl) ≤ pl * Q := Nat.mul_le_mul_left _ (by omega)
      have hcast : ((Q - S / pl : Nat) : Int) * (pl : Int) = (((Q - S / pl) * pl : Nat) : Int) := by
        rw [Int.natCast_mul]
      rw [hk, seekLoop_eq' pl (Q - S / pl) 0 ((S % pl : Nat) : Int) (by omega) (by omega) (by omega) hpl'
        (by intro _; rw [hcast, hmul]; omega), Files.seekLoop_eq]
      by_cases h0 : Q - S / pl = 0
      · rw [if_pos h0]
        simp only
        rw [w (x := (pl : Int) - ((S % pl : Nat) : Int)) (by omega) (by omega),
          w (x := (((S + f.length.toNat - 1) % pl : Nat) : Int) - ((S % pl : Nat) : Int)) (by omega) (by omega),
          w (x := (((S + f.length.toNat - 1) % pl : Nat) : Int) - ((S % pl : Nat) : Int) + 1) (by omega) (by omega)]
        refine ⟨rfl, ?_⟩
        intro p hp
        split at hp
        · cases hp; simp only; omega
        · cases hp
          simp only
          have : Q = S / pl := by omega
          have h2 : Q = (S + f.length.toNat - 1) / pl := by omega
          rw [← h2] at hdE
          rw [← this] at hdS
          omega
      · rw [if_neg h0]
        simp only
        rw [w (x := (pl : Int) - 0) (by omega) (by omega),
          w (x := (((S + f.length.toNat - 1) % pl : Nat) : Int) - 0) (by omega) (by omega),
          w (x := (((S + f.length.toNat - 1) % pl : Nat) : Int) - 0 + 1) (by omega) (by omega)]
        refine ⟨rfl, ?_⟩
        intro p hp
        split at hp
        · cases hp; simp only; omega
        · cases hp; simp only; omega
    · by_cases h1 : pl = 1
      · exfalso
        apply hr
        unfold entryAt
        rw [if_neg hn, if_pos h1]
        simp only
        omega
      · have hs : (entryAt pl S f).startPiece = (S / pl : Nat) := by unfold entryAt; rw [if_neg hn, if_neg h1]
        have hso : (entryAt pl S f).startOff = (S % pl : Nat) := by unfold entryAt; rw [if_neg hn, if_neg h1]
        have he : (entryAt pl S f).endPiece = (S / pl : Nat) := by unfold entryAt; rw [if_neg hn, if_neg h1]
        have heo : (entryAt pl S f).endOff = ((S % pl : Nat) : Int) - 1 := by unfold entryAt; rw [if_neg hn, if_neg h1]
        rw [hs, he] at hr
        rw [hs, hso, he, heo]
        have hq : q = (S / pl : Nat) := by omega
        subst hq
        rw [show (((S / pl : Nat) : Int) - ((S / pl : Nat) : Int)).toNat = 0 by omega]
        simp only [seekLoop, Files.seekLoop, Int.lt_irrefl, if_false]
        rw [w (x := ((S % pl : Nat) : Int) - 1 - ((S % pl : Nat) : Int)) (by omega) (by omega), w (by omega) (by omega)]
        refine ⟨rfl, ?_⟩
        intro p hp
        cases hp
        simp only
        omega

/-- the state in the int64 computation -/
def wr (st : PMState) : PMState := { st with totalCounted := wrap64 st.totalCounted }

/-- apply a function to a result -/
def mapR {α β : Type} (g : α → β) : Res α → Res β
  | .ok a => .ok (g a)
  | .err e => .err e
  | .panic => .panic
  | .timeout => .timeout

theorem inner_eq (pl S k : Nat) (f : EntryBase) (hpl : 0 < pl) (hpl' : pl < 2 ^ 63) (hf : 0 ≤ f.length)
    (hlt : S + f.length.toNat < 2 ^ 63) (fuel : Nat) (st : PMState) (h1 : 0 < st.pieceRem) (h2 : st.pieceRem ≤ pl) :
    pieceMapInner fuel k (entryAt pl S f) pl (wr st) = mapR wr (Files.pieceMapInner fuel k (entryAt pl S f) pl st) ∧
    ∀ st', Files.pieceMapInner fuel k (entryAt pl S f) pl st = .ok st' → 0 < st'.pieceRem ∧ st'.pieceRem ≤ pl := by
  induction fuel generalizing st with
  | zero => exact ⟨rfl, by intro st' h; cases h; exact ⟨h1, h2⟩⟩
  | succ fuel ih =>
    obtain ⟨hp, hb⟩ := pieceInfo_eq pl S f st.pieceIdx hpl hpl' hf hlt
    rw [pieceMapInner, Files.pieceMapInner]
    rw [show (wr st).pieceIdx = st.pieceIdx from rfl, hp, show (wr st).pm = st.pm from rfl,
      show (wr st).pieceRem = st.pieceRem from rfl, show (wr st).totalCounted = wrap64 st.totalCounted from rfl]
    cases hpi : (entryAt pl S f).PieceInfo st.pieceIdx pl with
    | ok p =>
      obtain ⟨r1, r2⟩ := hb p hpi
      simp only
      by_cases hneg : st.pieceIdx < 0
      · rw [if_pos hneg, if_pos hneg]
        exact ⟨rfl, by intro st' h; cases h⟩
      · rw [if_neg hneg, if_neg hneg]
        cases st.pm[st.pieceIdx.toNat]? with
        | none => exact ⟨rfl, by intro st' h; cases h⟩
        | some locs =>
          simp only
          rw [w (x := st.pieceRem - p.readAmnt) (by omega) (by omega), wrap_add]
          by_cases hc : st.pieceRem - p.readAmnt ≤ 0
          · rw [if_pos hc, if_pos hc]
            exact ih ⟨st.pm.set st.pieceIdx.toNat (locs ++ [⟨k, p⟩]), st.pieceIdx + 1, pl, st.totalCounted + p.readAmnt⟩
              (by simp only; omega) (by simp only; omega)
          · rw [if_neg hc, if_neg hc]
            refine ⟨rfl, ?_⟩
            intro st' h
            cases h
            simp only
            omega
    | err e => exact ⟨rfl, by intro st' h; cases h; exact ⟨h1, h2⟩⟩
    | panic => exact ⟨rfl, by intro st' h; cases h; exact ⟨h1, h2⟩⟩
    | timeout => exact ⟨rfl, by intro st' h; cases h; exact ⟨h1, h2⟩⟩

theorem loop_eq (np pl : Nat) (hpl : 0 < pl) (hpl' : pl < 2 ^ 63) (fs : List EntryBase) (hf : ∀ f ∈ fs, 0 ≤ f.length) (S k : Nat)
    (hlt : S + total (lens fs) < 2 ^ 63) (st : PMState) (h1 : 0 < st.pieceRem) (h2 : st.pieceRem ≤ pl) :
    pieceMapLoop np pl k (entriesFrom pl S fs) (wr st) = mapR wr (Files.pieceMapLoop np pl k (entriesFrom pl S fs) st) := by
  induction fs generalizing S k st with
  | nil => rfl
  | cons f fs ih =>
    have hf0 := hf f (by simp)
    have ht : total (lens (f :: fs)) = f.length.toNat + total (lens fs) := by simp [lens, total]
    rw [entriesFrom, pieceMapLoop, Files.pieceMapLoop, show (wr st).pieceIdx = st.pieceIdx from rfl]
    by_cases hc : st.pieceIdx = (np : Int)
    · rw [if_pos hc, if_pos hc]; rfl
    · rw [if_neg hc, if_neg hc]
      unfold pieceMapFile Files.pieceMapFile
      obtain ⟨a, b⟩ := inner_eq pl S k f hpl hpl' hf0 (by omega)
        (((entryAt pl S f).endPiece - st.pieceIdx).toNat + 2) st h1 h2
      rw [show (wr st).pieceIdx = st.pieceIdx from rfl, a]
      cases hr : Files.pieceMapInner (((entryAt pl S f).endPiece - st.pieceIdx).toNat + 2) k (entryAt pl S f) pl st with
      | ok st' =>
        simp only [mapR, Res.ok_bind]
        exact ih (fun g hg => hf g (by simp [hg])) _ _ (by omega) st' (b st' hr).1 (b st' hr).2
      | err e => rfl
      | panic => rfl
      | timeout => rfl

end Verif.Files64
