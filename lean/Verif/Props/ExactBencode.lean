import Verif.Lemmas.BencodePartial
import Verif.Props.Bencode
/-
C06 and C07: when memory behind the slice influences `Decode`, exactly.
-/
set_option autoImplicit false

namespace Verif.Bencode
open Spec Verif.Utils Verif.Size

/-- a top-level string -/
theorem decode_top (ds r sp : Bytes) (hd : Digits ds) : Decode (ds ++ 58 :: r) sp =
    if decVal ds ≤ r.length + sp.length then .ok (.str ((r ++ sp).take (decVal ds))) else .err .decoder := by
  have hdig := digits_isDigit hd
  obtain ⟨c, rs, rfl⟩ := List.exists_cons_of_ne_nil hd.1
  have hc := hdig c (by simp)
  have hl := isDigit_lit hc
  have e1 : (c :: rs ++ 58 :: r).dropWhile isDigit = 58 :: r := by
    rw [List.dropWhile_append_of_pos hdig, List.dropWhile_cons_of_neg (by decide)]
  have e2 : (c :: rs ++ 58 :: r).takeWhile isDigit = c :: rs := by
    rw [List.takeWhile_append_of_pos hdig, List.takeWhile_cons_of_neg (by decide), List.append_nil]
  unfold Decode DecodeFuel
  rw [List.cons_append, decodeValue_cons, if_neg hl.1, if_neg hl.2.1, if_neg hl.2.2.1, ← List.cons_append]
  unfold decodeString
  rw [e1, e2, (parseDigits_iff (c :: rs) (decVal (c :: rs)) hdig).mpr ⟨hd, rfl⟩]
  simp only [if_true]
  by_cases h : decVal (c :: rs) ≤ r.length + sp.length
  · rw [if_pos h, if_pos h]; rfl
  · rw [if_neg h, if_neg h]; rfl

/-- **C06**, exact: memory behind the slice makes a difference if and only if the slice holds a string whose announced length goes beyond the end of the slice but not beyond the
end of its capacity; the string is then completed from there, and without that memory it is refused. -/
theorem C06_iff_partial (data sp : Bytes) :
    (Decode data sp ≠ Decode data [] ↔ ∃ ds r, Digits ds ∧ data = ds ++ 58 :: r ∧ r.length < decVal ds ∧ decVal ds ≤ r.length + sp.length) ∧
    ∀ ds r, Digits ds → data = ds ++ 58 :: r → r.length < decVal ds → decVal ds ≤ r.length + sp.length →
      Decode data [] = .err .decoder ∧ Decode data sp = .ok (.str (r ++ sp.take (decVal ds - r.length))) := by
  have key : ∀ ds r, Digits ds → data = ds ++ 58 :: r → r.length < decVal ds → decVal ds ≤ r.length + sp.length →
      Decode data [] = .err .decoder ∧ Decode data sp = .ok (.str (r ++ sp.take (decVal ds - r.length))) := by
    rintro ds r hd rfl h1 h2
    rw [decode_top ds r [] hd, decode_top ds r sp hd, if_neg (by simp; omega), if_pos h2, List.take_append, List.take_of_length_le (by omega)]
    exact ⟨rfl, rfl⟩
  refine ⟨⟨fun hne => ?_, ?_⟩, key⟩
  · apply Classical.byContradiction
    intro hn
    apply hne
    cases data with
    | nil => rfl
    | cons c r =>
      by_cases hc : isDigit c = true
      · have hl := isDigit_lit hc
        have e : decodeString sp (c :: r) = decodeString [] (c :: r) := by
          unfold decodeString
          cases hdw : (c :: r).dropWhile isDigit with
          | nil => rfl
          | cons x rest =>
            simp only
            by_cases hx : x = 58
            · subst hx
              rw [if_pos rfl, if_pos rfl]
              obtain ⟨ds, hsplit, hdig, hds, -⟩ := split_digits hdw
              rw [hds]
              cases hp : parseDigits ds with
              | none => rfl
              | some n =>
                obtain ⟨hD, hv⟩ := (parseDigits_iff _ n hdig).mp hp
                simp only
                by_cases h1 : n ≤ rest.length
                · rw [if_pos (by omega), if_pos (by simp; omega), List.take_append_of_le_length h1, List.append_nil]
                · have h2 : ¬ n ≤ rest.length + sp.length := fun h2 => hn ⟨_, rest, hD, hsplit, by omega, by omega⟩
                  rw [if_neg h2, if_neg (by simp; omega)]
            · rw [if_neg hx, if_neg hx]
        unfold Decode DecodeFuel
        rw [decodeValue_cons, decodeValue_cons]
        simp only [if_neg hl.1, if_neg hl.2.1, if_neg hl.2.2.1, e]
      · exact C06_visible_bytes_only_partial _ sp fun c' h' => by
          cases h'
          intro h48
          exact hc ((isDigit_iff c).mpr h48)
  · rintro ⟨ds, r, hd, e, h1, h2⟩ heq
    obtain ⟨k1, k2⟩ := key ds r hd e h1 h2
    rw [heq, k1] at k2
    cases k2

example : Digits (ascii "10") ∧ ascii "10:hi" = ascii "10" ++ 58 :: ascii "hi" ∧ decVal (ascii "10") = 10 :=
  ⟨⟨by decide, by decide, by decide⟩, by decide, by decide⟩

/-- **C07**, exact, for strings that are truncated by re-slicing, so that the rest is still behind the slice: the truncated encoding is rejected if and only if the colon is cut
off, and otherwise the whole string comes back. -/
theorem C07_iff_partial (s : Bytes) (hs : s.length < 2 ^ 63) (p q more : Bytes) (hb : decNat s.length ++ 58 :: s = p ++ q) :
    ((∃ e, Decode p (q ++ more) = .err e) ↔ p.length ≤ (decNat s.length).length) ∧
    ((decNat s.length).length < p.length → Decode p (q ++ more) = .ok (.str s)) := by
  obtain ⟨hd, hv⟩ := decNat_digits s.length hs
  have good : (decNat s.length).length < p.length → Decode p (q ++ more) = .ok (.str s) := by
    intro h
    obtain ⟨r, rfl, hr⟩ : ∃ r, p = decNat s.length ++ 58 :: r ∧ s = r ++ q := by
      rcases List.append_eq_append_iff.mp hb with ⟨a, h1, h2⟩ | ⟨a, h1, h2⟩
      · cases a with
        | nil => rw [h1, List.append_nil] at h; exact absurd h (Nat.lt_irrefl _)
        | cons x a =>
          injection h2 with e1 e2
          subst e1
          exact ⟨a, h1, e2⟩
      · rw [h1, List.length_append] at h; omega
    rw [decode_top _ r _ hd, hv, hr, if_pos (by simp only [List.length_append]; omega)]
    congr 2
    rw [← List.append_assoc]
    exact List.take_left' (by simp)
  refine ⟨⟨fun ⟨e, he⟩ => ?_, fun h => ?_⟩, good⟩
  · apply Classical.byContradiction
    intro hn
    rw [good (by omega)] at he
    cases he
  · have hp : ∀ d ∈ p, isDigit d = true := by
      have : p <+: decNat s.length := List.prefix_of_prefix_length_le (l₃ := p ++ q) ⟨q, rfl⟩ ⟨_, hb⟩ h
      intro d hdp
      exact digits_isDigit hd d (this.subset hdp)
    cases p with
    | nil => exact ⟨.decoder, rfl⟩
    | cons c r =>
      have hl := isDigit_lit (hp c (by simp))
      refine ⟨.decoder, ?_⟩
      unfold Decode DecodeFuel
      rw [decodeValue_cons, if_neg hl.1, if_neg hl.2.1, if_neg hl.2.2.1]
      unfold decodeString
      have : (c :: r).dropWhile isDigit = [] := by
        have := List.dropWhile_append_of_pos (l₂ := []) hp
        rwa [List.append_nil] at this
      rw [this]
      rfl

example : decNat (ascii "hello").length ++ 58 :: ascii "hello" = ascii "5:he" ++ ascii "llo" := by decide +kernel

end Verif.Bencode
