import Verif.Model.Files
/-
Lemmas: in the piece map every file occurs at most once per piece, in the order of the files.
-/
set_option autoImplicit false

namespace Verif.Files

/-- all files in the map are before `k`, or `k` itself for pieces before `idx` -/
def Ord (k : Nat) (st : PMState) : Prop :=
  ∀ (i : Nat) (locs : List PieceLocation), st.pm[i]? = some locs → (locs.map PieceLocation.fidx).Pairwise (· < ·) ∧
    ∀ l ∈ locs, l.fidx < k ∨ l.fidx = k ∧ (i : Int) < st.pieceIdx

theorem ord_set (k : Nat) (pm : List (List PieceLocation)) (idx : Int) (locs : List PieceLocation) (p : PieceInfo) (h0 : 0 ≤ idx)
    (rem cnt : Int) (idx' rem' cnt' : Int) (h1 : idx ≤ idx') (hl : pm[idx.toNat]? = some locs)
    (h : Ord k ⟨pm, idx, rem, cnt⟩) (hs : idx' = idx → False) : Ord k ⟨pm.set idx.toNat (locs ++ [⟨k, p⟩]), idx', rem', cnt'⟩ := by
  intro i l hi
  simp only at hi ⊢
  rw [List.getElem?_set] at hi
  by_cases hii : idx.toNat = i
  · rw [if_pos hii, if_pos (by rw [← hii] at *; exact (List.getElem?_eq_some_iff.mp hl).1)] at hi
    cases hi
    obtain ⟨g1, g2⟩ := h _ _ hl
    simp only at g2
    constructor
    · rw [List.map_append, List.pairwise_append]
      refine ⟨g1, by simp, ?_⟩
      intro a ha b hb
      obtain ⟨x, hx, rfl⟩ := List.mem_map.mp ha
      simp only [List.map_cons, List.map_nil, List.mem_singleton] at hb
      subst hb
      rcases g2 x hx with h | h <;> omega
    · intro x hx
      rcases List.mem_append.mp hx with hx | hx
      · rcases g2 x hx with h | h <;> omega
      · simp only [List.mem_singleton] at hx
        subst hx
        right
        refine ⟨rfl, ?_⟩
        have : idx' ≠ idx := hs
        omega
  · rw [if_neg hii] at hi
    obtain ⟨g1, g2⟩ := h _ _ hi
    refine ⟨g1, fun x hx => ?_⟩
    simp only at g2
    rcases g2 x hx with h | h <;> omega

theorem ord_next {k : Nat} {st : PMState} (h : Ord k st) (pm' : List (List PieceLocation)) (i0 : Nat) (locs : List PieceLocation) (p : PieceInfo)
    (idx rem cnt : Int) (hpm : pm' = st.pm.set i0 (locs ++ [⟨k, p⟩])) (hl : st.pm[i0]? = some locs) (hi : st.pieceIdx ≤ i0) :
    Ord (k + 1) ⟨pm', idx, rem, cnt⟩ := by
  subst hpm
  intro i l hi'
  simp only at hi' ⊢
  rw [List.getElem?_set] at hi'
  by_cases hii : i0 = i
  · rw [if_pos hii, if_pos (by rw [← hii] at *; exact (List.getElem?_eq_some_iff.mp hl).1)] at hi'
    cases hi'
    obtain ⟨g1, g2⟩ := h _ _ hl
    constructor
    · rw [List.map_append, List.pairwise_append]
      refine ⟨g1, by simp, ?_⟩
      intro a ha b hb
      obtain ⟨x, hx, rfl⟩ := List.mem_map.mp ha
      simp only [List.map_cons, List.map_nil, List.mem_singleton] at hb
      subst hb
      rcases g2 x hx with h | h <;> omega
    · intro x hx
      rcases List.mem_append.mp hx with hx | hx
      · rcases g2 x hx with h | h <;> omega
      · simp only [List.mem_singleton] at hx
        subst hx
        left; simp only; omega
  · rw [if_neg hii] at hi'
    obtain ⟨g1, g2⟩ := h _ _ hi'
    refine ⟨g1, fun x hx => ?_⟩
    rcases g2 x hx with h | h <;> omega

theorem ord_succ {k : Nat} {st : PMState} (h : Ord k st) : Ord (k + 1) st := by
  intro i l hi
  obtain ⟨g1, g2⟩ := h _ _ hi
  refine ⟨g1, fun x hx => ?_⟩
  rcases g2 x hx with h | h <;> omega

theorem inner_ord (fuel k : Nat) (fe : Entry) (pl : Int) (st st' : PMState) (h : Ord k st)
    (hs : pieceMapInner fuel k fe pl st = .ok st') : Ord (k + 1) st' := by
  induction fuel generalizing st with
  | zero => rw [pieceMapInner] at hs; cases hs; exact ord_succ h
  | succ fuel ih =>
    rw [pieceMapInner] at hs
    split at hs
    · split at hs
      · cases hs
      · rename_i h0
        split at hs
        · cases hs
        · rename_i locs hl
          split at hs
          · refine ih _ ?_ hs
            exact ord_set k st.pm st.pieceIdx locs _ (by omega) st.pieceRem st.totalCounted _ _ _ (by omega) hl h (by omega)
          · cases hs
            exact ord_next h _ _ locs _ _ _ _ rfl hl (by omega)
    · cases hs; exact ord_succ h

theorem loop_ord (np pl : Int) (es : List Entry) (k : Nat) (st st' : PMState) (h : Ord k st)
    (hs : pieceMapLoop np pl k es st = .ok st') : ∃ k', Ord k' st' := by
  induction es generalizing k st with
  | nil => rw [pieceMapLoop] at hs; cases hs; exact ⟨k, h⟩
  | cons e es ih =>
    rw [pieceMapLoop] at hs
    split at hs
    · cases hs; exact ⟨k, h⟩
    · obtain ⟨st1, h1, h2⟩ := Res.bind_eq_ok.mp hs
      exact ih (k + 1) st1 (inner_ord _ _ _ _ _ _ h h1) h2

theorem makePieceMap_ord (fl : List Entry) (np : Nat) (pl tl : Int) (pm : List (List PieceLocation))
    (h : MakePieceMap fl np pl tl = .ok pm) (i : Nat) (locs : List PieceLocation) (hi : pm[i]? = some locs) :
    (locs.map PieceLocation.fidx).Pairwise (· < ·) := by
  unfold MakePieceMap at h
  obtain ⟨st, h1, h2⟩ := Res.bind_eq_ok.mp h
  split at h2
  · cases h2
  · cases h2
    obtain ⟨k, hk⟩ := loop_ord _ _ _ _ _ _ (by
      intro i l hl
      simp only at hl
      rw [List.getElem?_replicate] at hl
      split at hl
      · cases hl; simp
      · cases hl) h1
    exact (hk i locs hi).1

/-- whatever metadata is accepted: in the ranges of a piece every file occurs at most once, in the order of the files -/
theorem newTorInfo_ord (name : Bytes) (pl : Int) (hashes : Bytes) (files : List EntryBase) (ti : TorInfo)
    (h : NewTorInfo name pl hashes files = .ok ti) (i : Int) (locs : List PieceLocation) (hl : ti.PieceLookup i = .ok locs) :
    (locs.map PieceLocation.fidx).Pairwise (· < ·) := by
  unfold NewTorInfo at h
  split at h
  · cases h
  · obtain ⟨flist, -, h2⟩ := Res.bind_eq_ok.mp h
    obtain ⟨pm, h3, h4⟩ := Res.bind_eq_ok.mp h2
    cases h4
    unfold TorInfo.PieceLookup at hl
    split at hl
    · cases hl
    · split at hl
      · cases hl
      · simp only at hl
        split at hl
        · cases hl
        · rename_i x hx
          cases hl
          exact makePieceMap_ord _ _ _ _ _ h3 _ _ hx

end Verif.Files
