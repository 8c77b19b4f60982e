import Verif.Model.Url
import Verif.Spec.Query
import Verif.Lemmas.Bytes
import Verif.Lemmas.BencodeBasic
/- Helper lemmas about query strings. -/
set_option autoImplicit false

namespace Verif.Url
open Verif.Query Verif.Bencode

theorem escapeByte_cases : ∀ c : UInt8, (escapeByte c = [c] ∧ unreserved c = true ∧ c ≠ 37 ∧ c ≠ 43 ∧ c ≠ 38 ∧ c ≠ 61) ∨
    (c = 32 ∧ escapeByte c = [43]) ∨
    ∃ h l : UInt8, escapeByte c = [37, h, l] ∧ hexVal h = some (c / 16) ∧ hexVal l = some (c % 16) ∧ c / 16 * 16 + c % 16 = c ∧
      h ≠ 38 ∧ h ≠ 61 ∧ l ≠ 38 ∧ l ≠ 61 := by
  have key : ∀ c : UInt8, (escapeByte c = [c] ∧ unreserved c = true ∧ c ≠ 37 ∧ c ≠ 43 ∧ c ≠ 38 ∧ c ≠ 61) ∨
    (c = 32 ∧ escapeByte c = [43]) ∨
    (escapeByte c = [37, hexDigit (c / 16), hexDigit (c % 16)] ∧ hexVal (hexDigit (c / 16)) = some (c / 16) ∧
      hexVal (hexDigit (c % 16)) = some (c % 16) ∧ c / 16 * 16 + c % 16 = c ∧
      hexDigit (c / 16) ≠ 38 ∧ hexDigit (c / 16) ≠ 61 ∧ hexDigit (c % 16) ≠ 38 ∧ hexDigit (c % 16) ≠ 61) := by decide +kernel
  intro c
  rcases key c with h | h | h
  · exact .inl h
  · exact .inr (.inl h)
  · exact .inr (.inr ⟨_, _, h⟩)

theorem unescape_lit (c : UInt8) (r : Bytes) (h1 : c ≠ 37) (h2 : c ≠ 43) : unescape (c :: r) = (unescape r).map (c :: ·) := by
  rw [unescape.eq_def]
  split
  · contradiction
  · rename_i h; cases h; contradiction
  · rename_i h; cases h; contradiction
  · rename_i h; cases h; contradiction
  · rename_i h; cases h; rfl

theorem unescape_escape (s : Bytes) : unescape (QueryEscape s) = some s := by
  induction s with
  | nil => rfl
  | cons c s ih =>
    have e : QueryEscape (c :: s) = escapeByte c ++ QueryEscape s := rfl
    rw [e]
    rcases escapeByte_cases c with ⟨h, -, h1, h2, -⟩ | ⟨rfl, h⟩ | ⟨x, y, h, hx, hy, hc, -⟩
    · rw [h, List.singleton_append, unescape_lit c _ h1 h2, ih]; rfl
    · rw [h, List.singleton_append, unescape, ih]
      · rfl
    · rw [h]
      simp only [List.cons_append, List.nil_append]
      rw [unescape, hx, hy, ih]
      simp only [hc]

theorem escape_no_sep (s : Bytes) : ∀ c ∈ QueryEscape s, c ≠ 38 ∧ c ≠ 61 := by
  induction s with
  | nil => intro c hc; cases hc
  | cons a s ih =>
    have e : QueryEscape (a :: s) = escapeByte a ++ QueryEscape s := rfl
    rw [e]
    intro c hc
    rcases List.mem_append.mp hc with hc | hc
    · rcases escapeByte_cases a with ⟨h, -, -, -, h1, h2⟩ | ⟨-, h⟩ | ⟨x, y, h, -, -, -, h1, h2, h3, h4⟩
      · rw [h] at hc; cases List.mem_singleton.mp hc; exact ⟨h1, h2⟩
      · rw [h] at hc; cases List.mem_singleton.mp hc; decide
      · rw [h] at hc
        simp only [List.mem_cons, List.not_mem_nil, or_false] at hc
        rcases hc with rfl | rfl | rfl
        · decide
        · exact ⟨h1, h2⟩
        · exact ⟨h3, h4⟩
    · exact ih c hc

theorem escape_eq_iff (s : Bytes) : QueryEscape s = s ↔ ∀ c ∈ s, unreserved c = true := by
  have hlen : ∀ s : Bytes, s.length ≤ (QueryEscape s).length := by
    intro s
    induction s with
    | nil => exact Nat.le_refl _
    | cons a s ih =>
      have e : QueryEscape (a :: s) = escapeByte a ++ QueryEscape s := rfl
      rw [e, List.length_append, List.length_cons]
      rcases escapeByte_cases a with ⟨h, -⟩ | ⟨-, h⟩ | ⟨x, y, h, -⟩ <;> rw [h] <;> simp <;> omega
  induction s with
  | nil => simp [QueryEscape]
  | cons a s ih =>
    have e : QueryEscape (a :: s) = escapeByte a ++ QueryEscape s := rfl
    rw [e, List.forall_mem_cons]
    refine Iff.trans ?_ (and_congr_right fun _ => ih)
    rcases escapeByte_cases a with ⟨h, hu, -⟩ | ⟨rfl, h⟩ | ⟨x, y, h, hx, hy, hc, -⟩
    · rw [h, hu]; simp
    · rw [h]
      have : unreserved 32 = false := by decide
      simp [this]
    · rw [h]
      have hu : unreserved a = false := by
        rw [← Bool.not_eq_true]
        intro hu
        have : escapeByte a = [a] := by unfold escapeByte; rw [if_pos hu]
        rw [this] at h
        cases h
      rw [hu]
      constructor
      · intro hh
        have h2 := congrArg List.length hh
        have h3 := hlen s
        simp only [List.cons_append, List.nil_append, List.length_cons] at h2
        omega
      · intro hh; cases hh.1

theorem splitOn_none (sep : UInt8) (s : Bytes) (h : ∀ c ∈ s, c ≠ sep) : splitOn sep s = [s] := by
  induction s with
  | nil => rfl
  | cons c s ih => rw [splitOn, if_neg (h c (by simp)), ih (fun x hx => h x (by simp [hx]))]

theorem splitOn_append (sep : UInt8) (s t : Bytes) (h : ∀ c ∈ s, c ≠ sep) : splitOn sep (s ++ sep :: t) = s :: splitOn sep t := by
  induction s with
  | nil => rw [List.nil_append, splitOn, if_pos rfl]
  | cons c s ih => rw [List.cons_append, splitOn, if_neg (h c (by simp)), ih (fun x hx => h x (by simp [hx]))]

theorem parsePair_encode (p : Bytes × Bytes) : parsePair (encodePair p) = some p := by
  unfold parsePair encodePair
  rw [List.append_assoc, List.singleton_append, splitOn_append _ _ _ (fun c hc => (escape_no_sep _ c hc).2),
    splitOn_none _ _ (fun c hc => (escape_no_sep _ c hc).2)]
  simp only [unescape_escape]

theorem encodePair_no_amp (p : Bytes × Bytes) : ∀ c ∈ encodePair p, c ≠ 38 := by
  intro c hc
  unfold encodePair at hc
  simp only [List.append_assoc, List.mem_append, List.mem_singleton] at hc
  rcases hc with hc | rfl | hc
  · exact (escape_no_sep _ c hc).1
  · decide
  · exact (escape_no_sep _ c hc).1

theorem parseQuery_join (ps : List (Bytes × Bytes)) (h : ps ≠ []) : parseQuery (joinPairs ps) = some ps := by
  induction ps with
  | nil => contradiction
  | cons p ps ih =>
    unfold parseQuery at ih ⊢
    rw [joinPairs]
    by_cases hp : ps = []
    · rw [if_pos hp, splitOn_none _ _ (encodePair_no_amp p), hp]
      simp [List.mapM_cons, List.mapM_nil, parsePair_encode]
    · rw [if_neg hp, List.append_assoc, List.singleton_append, splitOn_append _ _ _ (encodePair_no_amp p)]
      rw [List.mapM_cons, parsePair_encode, ih hp]
      rfl

/-- sorted by key -/
def Sorted (ps : List (Bytes × Bytes)) : Prop := ps.Pairwise fun p q => bytesLe p.1 q.1 = true

theorem insertKey_mem (p : Bytes × Bytes) (ps : List (Bytes × Bytes)) : ∀ q, q ∈ insertKey p ps ↔ q = p ∨ q ∈ ps := by
  intro q
  induction ps with
  | nil => simp [insertKey]
  | cons x xs ih =>
    rw [insertKey]
    split
    · simp
    · rw [List.mem_cons, ih, List.mem_cons]; grind

theorem insertKey_sorted (p : Bytes × Bytes) (ps : List (Bytes × Bytes)) (h : Sorted ps) : Sorted (insertKey p ps) := by
  unfold Sorted at h ⊢
  induction ps with
  | nil => simp [insertKey]
  | cons x xs ih =>
    obtain ⟨h1, h2⟩ := List.pairwise_cons.mp h
    rw [insertKey]
    split
    · rename_i hc
      rw [Bool.and_eq_true] at hc
      refine List.pairwise_cons.mpr ⟨?_, h⟩
      intro y hy
      rcases List.mem_cons.mp hy with rfl | hy
      · exact hc.1
      · exact bytesLe_trans _ _ _ hc.1 (h1 y hy)
    · rename_i hc
      refine List.pairwise_cons.mpr ⟨?_, ih h2⟩
      intro y hy
      rcases (insertKey_mem p xs y).mp hy with rfl | hy
      · by_cases he : y.1 = x.1
        · rw [he]; exact bytesLe_refl _
        · have := bytesLe_total y.1 x.1
          simp only [Bool.or_eq_true] at this
          rcases this with h' | h'
          · exact absurd (by simp [h', he]) hc
          · exact h'
      · exact h1 y hy

theorem values_cons (x : Bytes × Bytes) (xs : List (Bytes × Bytes)) (k : Bytes) :
    values (x :: xs) k = (if x.1 = k then [x.2] else []) ++ values xs k := by
  unfold values
  by_cases h : x.1 = k
  · simp [h]
  · simp [h]

theorem values_append (xs ys : List (Bytes × Bytes)) (k : Bytes) : values (xs ++ ys) k = values xs k ++ values ys k := by
  unfold values; simp

theorem values_insertKey (p : Bytes × Bytes) (ps : List (Bytes × Bytes)) (h : Sorted ps) (k : Bytes) :
    values (insertKey p ps) k = values ps k ++ (if p.1 = k then [p.2] else []) := by
  unfold Sorted at h
  induction ps with
  | nil => rw [insertKey, values_cons]; simp [values]
  | cons x xs ih =>
    obtain ⟨h1, h2⟩ := List.pairwise_cons.mp h
    rw [insertKey]
    split
    · rename_i hc
      rw [Bool.and_eq_true] at hc
      rw [values_cons p]
      by_cases hk : p.1 = k
      · have hz : values (x :: xs) k = [] := by
          unfold values
          rw [List.map_eq_nil_iff, List.filter_eq_nil_iff]
          intro y hy hyk
          have hyk : y.1 = k := by simpa using hyk
          have hle : bytesLe x.1 y.1 = true := by
            rcases List.mem_cons.mp hy with rfl | hy
            · exact bytesLe_refl _
            · exact h1 y hy
          rw [hyk, ← hk] at hle
          have := bytesLe_antisymm _ _ hc.1 hle
          simp [this] at hc
        rw [hz]; simp
      · simp [hk]
    · rw [values_cons x, values_cons x, ih h2, List.append_assoc]

theorem sortKeys_spec (vs : List (Bytes × Bytes)) : Sorted (sortKeys vs) ∧ ∀ k, values (sortKeys vs) k = values vs k := by
  have key : ∀ (vs acc : List (Bytes × Bytes)), Sorted acc →
      Sorted (vs.foldl (fun acc p => insertKey p acc) acc) ∧
      ∀ k, values (vs.foldl (fun acc p => insertKey p acc) acc) k = values acc k ++ values vs k := by
    intro vs
    induction vs with
    | nil => intro acc h; exact ⟨h, fun k => by simp [values]⟩
    | cons p vs ih =>
      intro acc h
      rw [List.foldl_cons]
      obtain ⟨h1, h2⟩ := ih _ (insertKey_sorted p acc h)
      refine ⟨h1, fun k => ?_⟩
      rw [h2, values_insertKey p acc h, values_cons, List.append_assoc]
  obtain ⟨h1, h2⟩ := key vs [] List.Pairwise.nil
  exact ⟨h1, fun k => by rw [sortKeys, h2]; simp [values]⟩

theorem sortKeys_ne_nil (vs : List (Bytes × Bytes)) (h : vs ≠ []) : sortKeys vs ≠ [] := by
  obtain ⟨p, hp⟩ := List.exists_mem_of_ne_nil vs h
  have h1 := (sortKeys_spec vs).2 p.1
  intro hz
  rw [hz] at h1
  have : p.2 ∈ values vs p.1 := by
    unfold values
    exact List.mem_map_of_mem (List.mem_filter.mpr ⟨hp, by simp⟩)
  rw [← h1] at this
  simp [values] at this

end Verif.Url
