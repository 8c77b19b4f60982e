import Verif.Lemmas.PieceMap
/-
Helper lemmas: from positions to bytes, and the loop of GetFiles.
-/
set_option autoImplicit false

namespace Verif.Files
open Verif.Layout

theorem lens_get (files : List EntryBase) (k : Nat) (f : EntryBase) (h : files[k]? = some f) :
    (lens files)[k]? = some f.length.toNat := by
  unfold lens; rw [List.getElem?_map, h]; rfl

/-- a range inside of one of the parts is a range of the concatenation -/
theorem range_flatten (cs : List Bytes) (k : Nat) (c : Bytes) (h : cs[k]? = some c) (s n : Nat) (hb : s + n ≤ c.length) :
    range cs.flatten (startPos (cs.map List.length) k + s) n = range c s n := by
  induction cs generalizing k with
  | nil => simp at h
  | cons d ds ih =>
    cases k with
    | zero =>
      simp only [List.getElem?_cons_zero, Option.some.injEq] at h
      subst h
      unfold range startPos
      simp only [List.take_zero, List.sum_nil, Nat.zero_add, List.flatten_cons]
      rw [List.drop_append_of_le_length (by omega), List.take_append_of_le_length (by rw [List.length_drop]; omega)]
    | succ k =>
      simp only [List.getElem?_cons_succ] at h
      have := ih k h
      unfold range startPos at this ⊢
      rw [← this]
      simp only [List.map_cons, List.take_succ_cons, List.sum_cons, List.flatten_cons]
      rw [show d.length + (List.take k (List.map List.length ds)).sum + s =
        d.length + ((List.take k (List.map List.length ds)).sum + s) by omega]
      rw [List.drop_append, List.drop_eq_nil_of_le (by omega)]
      simp

theorem range_append (bs : Bytes) (a n m : Nat) : range bs a n ++ range bs (a + n) m = range bs a (n + m) := by
  unfold range
  rw [List.take_add, List.drop_drop]

/-- the bytes the locations denote for given file contents -/
def fetch (cs : List Bytes) (locs : List PieceLocation) : Bytes :=
  (locs.map fun l => range (cs.getD l.fidx []) l.loc.seekAmnt.toNat l.loc.readAmnt.toNat).flatten

theorem Consec.le {ls : List Nat} {a b : Nat} {locs : List PieceLocation} (h : Consec ls a locs b) : a ≤ b := by
  induction h with
  | nil => exact Nat.le_refl _
  | cons a b k s r rest h1 h0 h2 _ ih => omega

theorem consec_fetch {cs : List Bytes} {a b : Nat} {locs : List PieceLocation}
    (h : Consec (cs.map List.length) a locs b) : fetch cs locs = range cs.flatten a (b - a) := by
  induction h with
  | nil a => simp [fetch, range]
  | cons a b k s r rest h1 h0 h2 hr ih =>
    have hle := hr.le
    have hk : k < cs.length := by simpa using h0
    have hck : cs[k]? = some cs[k] := List.getElem?_eq_getElem hk
    have hs := startPos_succ (cs.map List.length) k cs[k].length (by rw [List.getElem?_map, hck]; rfl)
    unfold fetch at ih ⊢
    rw [List.map_cons, List.flatten_cons, ih]
    simp only [Int.toNat_natCast]
    rw [List.getD_eq_getElem?_getD, hck, Option.getD_some, ← range_flatten cs k _ hck s r (by omega), h1, range_append]
    congr 1
    omega

/-- state of the loop of GetFiles before the entry `i`, `Hit` being the wanted entries -/
def GInv (Hit : Nat → Prop) (i : Nat) (st : Bool × Nat × Nat) : Prop :=
  (st = (false, 0, 0) ∧ ∀ k, k < i → ¬ Hit k) ∨
  (st.1 = true ∧ 0 < st.2.2 ∧ st.2.1 + st.2.2 ≤ i ∧ ∀ k, k < i → (Hit k ↔ st.2.1 ≤ k ∧ k < st.2.1 + st.2.2))

theorem getFilesLoop_inv (fl : List Entry) (p : Int)
    (hmono : ∀ (i j : Nat) (e e' : Entry), i ≤ j → fl[i]? = some e → fl[j]? = some e' → e.startPiece ≤ e'.startPiece)
    (Hit : Nat → Prop) (hHit : ∀ k, Hit k ↔ ∃ e, fl[k]? = some e ∧ e.startPiece ≤ p ∧ p ≤ e.endPiece)
    (hconv : ∀ i k j, i ≤ k → k ≤ j → Hit i → Hit j → Hit k)
    (rest : List Entry) (i : Nat) (hrest : fl.drop i = rest) (st : Bool × Nat × Nat) (hinv : GInv Hit i st) (hi : i ≤ fl.length) :
    GInv Hit fl.length (getFilesLoop p i st rest) := by
  induction rest generalizing i st with
  | nil =>
    have : fl.length ≤ i := List.drop_eq_nil_iff.mp hrest
    have : i = fl.length := by omega
    subst this
    exact hinv
  | cons e rest ih =>
    have hilt : i < fl.length := by
      rcases Nat.lt_or_ge i fl.length with h | h
      · exact h
      · rw [List.drop_eq_nil_iff.mpr h] at hrest; cases hrest
    have hie : fl[i]? = some e := by
      have := List.getElem?_drop (xs := fl) (i := i) (j := 0)
      rw [hrest] at this
      simpa using this.symm
    have hrest' : fl.drop (i + 1) = rest := by rw [← List.drop_drop, hrest]; rfl
    rw [getFilesLoop]
    by_cases hgt : e.startPiece > p
    · rw [if_pos hgt]
      have hno : ∀ k, i ≤ k → ¬ Hit k := by
        intro k hk hh
        obtain ⟨e', h1, h2, -⟩ := (hHit k).mp hh
        have := hmono i k e e' hk hie h1
        omega
      rcases hinv with ⟨h1, h2⟩ | ⟨h1, h2, h3, h4⟩
      · refine .inl ⟨h1, fun k hk => ?_⟩
        rcases Nat.lt_or_ge k i with h | h
        · exact h2 k h
        · exact hno k h
      · refine .inr ⟨h1, h2, by omega, fun k hk => ?_⟩
        rcases Nat.lt_or_ge k i with h | h
        · exact h4 k h
        · exact ⟨fun hh => absurd hh (hno k h), fun hh => by omega⟩
    · rw [if_neg hgt]
      by_cases hhit : e.startPiece ≤ p ∧ e.endPiece ≥ p
      · rw [if_pos hhit]
        have hHi : Hit i := (hHit i).mpr ⟨e, hie, hhit.1, hhit.2⟩
        refine ih (i + 1) hrest' _ ?_ hilt
        rcases hinv with ⟨h1, h2⟩ | ⟨h1, h2, h3, h4⟩
        · subst h1
          refine .inr ⟨rfl, by simp, by simp, fun k hk => ?_⟩
          simp only [Bool.false_eq_true, if_false]
          rcases Nat.lt_or_ge k i with h | h
          · exact ⟨fun hh => absurd hh (h2 k h), fun hh => by omega⟩
          · have : k = i := by omega
            subst this
            exact ⟨fun _ => by omega, fun _ => hHi⟩
        · have heq : st.2.1 + st.2.2 = i := by
            rcases Nat.lt_or_ge (st.2.1 + st.2.2) i with h | h
            · exfalso
              have hst : Hit st.2.1 := (h4 st.2.1 (by omega)).mpr (by omega)
              have := hconv st.2.1 (st.2.1 + st.2.2) i (by omega) (by omega) hst hHi
              have := (h4 _ h).mp this
              omega
            · omega
          refine .inr ⟨rfl, by simp, ?_, fun k hk => ?_⟩
          · simp only [h1, if_true]; omega
          · simp only [h1, if_true]
            rcases Nat.lt_or_ge k i with h | h
            · rw [h4 k h]; omega
            · have : k = i := by omega
              subst this
              exact ⟨fun _ => by omega, fun _ => hHi⟩
      · rw [if_neg hhit]
        have hHi : ¬ Hit i := by
          intro hh
          obtain ⟨e', h1, h2, h3⟩ := (hHit i).mp hh
          rw [hie] at h1
          cases h1
          exact hhit ⟨h2, h3⟩
        refine ih (i + 1) hrest' _ ?_ hilt
        rcases hinv with ⟨h1, h2⟩ | ⟨h1, h2, h3, h4⟩
        · refine .inl ⟨h1, fun k hk => ?_⟩
          rcases Nat.lt_or_ge k i with h | h
          · exact h2 k h
          · have : k = i := by omega
            subst this; exact hHi
        · refine .inr ⟨h1, h2, by omega, fun k hk => ?_⟩
          rcases Nat.lt_or_ge k i with h | h
          · exact h4 k h
          · have : k = i := by omega
            subst this
            exact ⟨fun hh => absurd hh hHi, fun hh => by omega⟩

/-- number of pieces needed, as an inequality -/
theorem needed_le_iff (n pl np : Nat) (hpl : 0 < pl) : needed n pl ≤ np ↔ n ≤ np * pl := by
  unfold needed
  rw [← Nat.lt_add_one_iff, Nat.div_lt_iff_lt_mul hpl, Nat.add_mul]
  omega

theorem needed_eq_iff (n pl np : Nat) (hpl : 0 < pl) : needed n pl = np ↔ n ≤ np * pl ∧ np * pl < n + pl := by
  unfold needed
  rw [Nat.div_eq_iff hpl]
  omega

end Verif.Files
