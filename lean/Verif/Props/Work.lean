import Verif.Lemmas.Work
/-
C116: what reading a document costs.
-/
set_option autoImplicit false

namespace Verif.Props
open Verif.Bencode Verif.Bencode.Spec Verif.Work Verif.Work.Spec Verif.Utils Verif.Size

/-- C116: the decoder whose work is counted has the results of the decoder. -/
theorem C116_same (data spare : Bytes) : (DecodeW data spare).1 = Decode data spare := decodeW_fst data spare

example : (match (DecodeW (ascii "0003:xyz!") []).1 with | .ok (.str a) => a | _ => []) = ascii "xyz" := by decide +kernel

/-- C116: a document is accepted, and the work for it is what is read off the document, whatever comes behind it. -/
theorem C116_exact {m : Nat} {b : Bytes} {n : Nat} (h : Costs m b n) (spare rest : Bytes) :
    (∃ v, Decode (b ++ rest) spare = .ok v) ∧ (DecodeW (b ++ rest) spare).2 = n := by
  have := decode_costs h spare rest
  rw [decodeW_fst] at this
  exact this

theorem exCost : Costs 2 (ascii "d1:al2:xyi-12eee") 28 :=
  .dict (m := 2) (ascii "1:al2:xyi-12ee") 26 (.cons (m := 2) (ascii "1") (ascii "a") (ascii "l2:xyi-12ee") [] 20 0 (by unfold Digits; decide) (by decide)
    (by decide)
    (.list (ascii "2:xyi-12e") 18 (.cons (ascii "2:xy") (ascii "i-12e") 6 11
      (.str (m := 2) (ascii "2") (ascii "xy") (by unfold Digits; decide) (by decide) (by decide))
      (.cons (ascii "i-12e") [] 10 0 (.int (m := 2) (ascii "-") (ascii "12") (by unfold Digits; decide) (by decide) (by decide) (.inr rfl)) .nil))) .nil)

example : (DecodeW (ascii "d1:al2:xyi-12eee" ++ ascii "more") (ascii "spare")).2 = 28 := (C116_exact exCost _ _).2

/-- C116: whatever is accepted is such a document, with something behind it (for data without spare capacity: C06). -/
theorem C116_every (data : Bytes) (v : Value) (h : Decode data [] = .ok v) :
    ∃ b rest n, data = b ++ rest ∧ Costs b.length b n ∧ (DecodeW data []).2 = n := by
  obtain ⟨b, rest, n, hd, hn⟩ := accepted_costs h
  exact ⟨b, rest, n, hd, hn, by rw [hd]; exact (C116_exact hn [] rest).2⟩

example : ∃ v, Decode (ascii "d1:al2:xyi-12eee" ++ ascii "more") [] = .ok v := (C116_exact exCost [] _).1

/-- C116: in proportion to the length, with a factor that grows with the longest numeral. -/
theorem C116_linear_partial {m : Nat} {b : Bytes} {n : Nat} (h : Costs m b n) (spare rest : Bytes) :
    (DecodeW (b ++ rest) spare).2 ≤ (m + 4) * b.length := by
  have := costs_le h
  rw [(C116_exact h spare rest).2]
  omega

example : (DecodeW (ascii "d1:al2:xyi-12eee" ++ ascii "more") []).2 ≤ 6 * 16 := C116_linear_partial exCost [] _

/-- C116: for a document as the standard demands it, no more than 23 for every byte. -/
theorem C116_canonical_partial {v : Value} {b : Bytes} (h : Canon v b) (hl : LenOk v) (hi : AllInts (fun i => -2 ^ 63 < i ∧ i < 2 ^ 63) v)
    (spare rest : Bytes) : (∃ w, Decode (b ++ rest) spare = .ok w) ∧ (DecodeW (b ++ rest) spare).2 ≤ 23 * b.length := by
  obtain ⟨n, hn⟩ := canon_costs h hl hi
  exact ⟨(C116_exact hn spare rest).1, C116_linear_partial hn spare rest⟩

example : (DecodeW (ascii "l2:xyi-12ee" ++ ascii "more") []).2 ≤ 23 * 11 := by
  refine (C116_canonical_partial (v := .list [.str (ascii "xy"), .int64 (-12)]) (b := ascii "l2:xyi-12ee") ?_ ?_ ?_ [] (ascii "more")).2
  · refine .list _ (ascii "2:xyi-12e") (.cons _ _ (ascii "2:xy") (ascii "i-12e") ?_ (.cons _ [] (ascii "i-12e") [] ?_ .nil))
    · have := Canon.str (ascii "xy") (by decide)
      rw [decNat_eq] at this
      have e : natDec (ascii "xy").length = ascii "2" := by decide +kernel
      rw [e] at this
      exact this
    · have := Canon.int (-12)
      rw [decInt_eq] at this
      have e : intDec (-12) = ascii "-12" := by decide +kernel
      rw [e] at this
      exact this
  · refine .list _ fun v hv => ?_
    simp only [List.mem_cons, List.not_mem_nil, or_false] at hv
    rcases hv with rfl | rfl
    · exact .str _ (by show 2 < 2 ^ 63; omega)
    · exact .int64 _
  · refine .list _ fun v hv => ?_
    simp only [List.mem_cons, List.not_mem_nil, or_false] at hv
    rcases hv with rfl | rfl
    · exact .str _
    · exact .int64 _ ⟨by omega, by omega⟩

/-- C116: whatever the bytes are, document or not, never more than the square of their number, and six for each; the bytes behind the data count twice. -/
theorem C116_square (data spare : Bytes) : (DecodeW data spare).2 ≤ (data.length + 6) * data.length + 2 * spare.length := decodeW_le data spare

example : (DecodeW (ascii "0000000009x") (ascii "spare")).2 = 67 ∧ (11 + 6) * 11 + 2 * 5 = 197 := by decide +kernel

/-- a string of one byte, whose length is written with `n` zeros in front -/
def zeros (n : Nat) : Bytes := List.replicate n 48 ++ ascii "1:a"

theorem decVal_zeros (n : Nat) : decVal (List.replicate n 48 ++ ascii "1") = 1 := by
  induction n with
  | zero => decide
  | succ n ih => rw [List.replicate_succ, List.cons_append, decVal, ih]; simp

theorem zeros_digits (n : Nat) : Digits (List.replicate n 48 ++ ascii "1") := by
  refine ⟨by simp [ascii], fun d hd => ?_, by rw [decVal_zeros]; decide⟩
  simp only [List.mem_append, List.mem_replicate] at hd
  rcases hd with ⟨-, rfl⟩ | hd
  · decide
  · revert d; decide

theorem zeros_costs (n : Nat) : Costs (n + 1) (zeros n) (1 + numeral (n + 1) + 1) := by
  have hd := zeros_digits n
  have := Costs.str (m := n + 1) (List.replicate n 48 ++ ascii "1") (ascii "a") hd (by simp [ascii]) (by rw [decVal_zeros]; decide)
  have e : (List.replicate n (48 : UInt8) ++ ascii "1").length = n + 1 := by simp [ascii]
  rw [e] at this
  have e2 : List.replicate n (48 : UInt8) ++ ascii "1" ++ ascii ":" ++ ascii "a" = zeros n := by simp [zeros, ascii]
  rw [e2] at this
  exact this

/-- C116, refuted: a length may be written with any number of zeros in front.  Such bytes are accepted, and the work is half the square of their number. -/
theorem C116_refuted_square (n : Nat) (spare : Bytes) :
    Decode (zeros n) spare = .ok (.str (ascii "a")) ∧ (zeros n).length = n + 3 ∧ n * n < 2 * (DecodeW (zeros n) spare).2 := by
  refine ⟨?_, by simp [zeros, ascii], ?_⟩
  · have hd : StrDoc (ascii "a") (zeros n) := ⟨List.replicate n 48 ++ ascii "1", zeros_digits n, by rw [decVal_zeros]; decide, by simp [zeros, ascii]⟩
    obtain ⟨w, hw, hs⟩ := decodeValue_doc (.str (ascii "a") (zeros n) hd) (2 * (zeros n).length + 1) spare [] (by omega)
    cases hs
    rw [List.append_nil] at hw
    rw [Decode, DecodeFuel, hw]
  · have h := (C116_exact (zeros_costs n) spare []).2
    rw [List.append_nil] at h
    rw [h, numeral]
    have := two_tri (n + 1)
    simp only [Nat.mul_add, Nat.add_mul] at this ⊢
    omega

/-- C116, refuted: no factor is large enough, even for the bytes that are accepted. -/
theorem C116_refuted (c : Nat) : ∃ data v, Decode data [] = .ok v ∧ c * data.length < (DecodeW data []).2 := by
  refine ⟨zeros (2 * c + 6), _, (C116_refuted_square _ []).1, ?_⟩
  have h := C116_refuted_square (2 * c + 6) []
  have h2 := h.2.2
  have e : c * (2 * c) = 2 * (c * c) := by rw [Nat.mul_left_comm]
  have e2 : 2 * c * (2 * c) = 4 * (c * c) := by rw [Nat.mul_assoc, e]; omega
  rw [h.2.1]
  simp only [Nat.mul_add, Nat.add_mul, e, e2] at h2 ⊢
  omega

example : (DecodeW (zeros 30) []).2 = 530 := by
  have := (C116_exact (zeros_costs 30) [] []).2
  rw [List.append_nil] at this
  rw [this]; decide

end Verif.Props
