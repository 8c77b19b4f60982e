import Verif.Lemmas.BencodeDoc
/-
What `Encode` leaves in its buffer when it fails is a strict prefix of a document, hence not a document itself.
-/
set_option autoImplicit false

namespace Verif.Bencode
open Spec Verif.Utils Verif.Size

/-- the bytes of `e` can be continued to a document, properly if `e` is an error -/
def Completes (e : Enc) : Prop := ∃ q w, Parses w (e.1 ++ q) ∧ (e.2 ≠ none → q ≠ []) ∧ (e.2 = none → q = [])

theorem strDoc_empty : StrDoc [] (ascii "0:") :=
  ⟨ascii "0", ⟨by decide, by decide, by decide⟩, by decide, by decide⟩

theorem decNat_digits (n : Nat) (h : n < 2 ^ 63) : Digits (decNat n) ∧ decVal (decNat n) = n := by
  have hv : decVal (decNat n) = n := by
    rw [← digitsVal_eq, decNat_eq]; exact digitsVal_natDec n
  refine ⟨⟨?_, ?_, by rw [hv]; exact h⟩, hv⟩
  · obtain ⟨c, r, hc, -⟩ := decNat_head n
    rw [hc]; simp
  · intro d hd
    rw [decNat_eq] at hd
    exact (isDigit_iff d).mp (natDec_digits n d hd)

theorem strDoc_canon (s : Bytes) (h : s.length < 2 ^ 63) : StrDoc s (decNat s.length ++ ascii ":" ++ s) :=
  ⟨_, (decNat_digits _ h).1, (decNat_digits _ h).2, rfl⟩

theorem intDoc_canon (i : Int) (h : -2 ^ 63 < i ∧ i < 2 ^ 63) : IntDoc i ([105] ++ intDec i ++ [101]) := by
  have hn : i.natAbs < 2 ^ 63 := by omega
  have hd := decNat_digits _ hn
  rw [decNat_eq] at hd
  refine ⟨natDec i.natAbs, hd.1, ?_, ?_⟩
  · intro h0
    obtain ⟨c, r, hc, -⟩ := natDec_cons i.natAbs
    rw [hc] at h0
    simp only [List.head?_cons, Option.some.injEq] at h0
    subst h0
    rw [hc, (natDec_head_zero _ _ hc).2]
  · unfold intDec
    by_cases hi : i < 0
    · right
      rw [if_pos hi, hd.2]
      exact ⟨by simp [ascii], by omega⟩
    · left
      rw [if_neg hi, hd.2]
      exact ⟨by simp [ascii], by omega⟩

theorem encodeString_completes (s : Bytes) (h : s.length < 2 ^ 63) :
    (s = [] ∧ encodeString s = ([], some .encoder)) ∨ ∃ b, encodeString s = (b, none) ∧ StrDoc s b := by
  by_cases h0 : s = []
  · left; subst h0; exact ⟨rfl, rfl⟩
  · right; exact ⟨_, encodeString_ok s h0, strDoc_canon s h⟩

theorem seqEnc_completes (l : List Enc) (h : ∀ e ∈ l, Completes e) :
    ∃ (q : Bytes) (vs : List (Value × Bytes)), (seqEnc l).1 ++ q = (vs.map Prod.snd).flatten ∧ (∀ p ∈ vs, Parses p.1 p.2) ∧
      ((seqEnc l).2 ≠ none → q ≠ []) ∧ ((seqEnc l).2 = none → q = []) := by
  induction l with
  | nil => exact ⟨[], [], rfl, by simp, by simp [seqEnc], fun _ => rfl⟩
  | cons e l ih =>
    obtain ⟨q, w, hw, hq, hq'⟩ := h e (by simp)
    obtain ⟨b, o⟩ := e
    cases o with
    | some er =>
      refine ⟨q, [(w, b ++ q)], by simp [seqEnc], ?_, fun _ => hq (by simp), by simp [seqEnc]⟩
      intro p hp
      simp only [List.mem_singleton] at hp
      subst hp; exact hw
    | none =>
      obtain ⟨q2, vs, h1, h2, h3, h4⟩ := ih (fun e he => h e (by simp [he]))
      have hq0 := hq' rfl
      subst hq0
      refine ⟨q2, (w, b) :: vs, ?_, ?_, h3, h4⟩
      · simp only [seqEnc, List.map_cons, List.flatten_cons, ← h1]
        simp
      · intro p hp
        rcases List.mem_cons.mp hp with rfl | hp
        · simpa using hw
        · exact h2 p hp

theorem seqEnc_completes_dict (l : List (Bytes × Enc)) (hk : ∀ e ∈ l, e.1.length < 2 ^ 63) (h : ∀ e ∈ l, Completes e.2) :
    ∃ (q : Bytes) (es : List Item),
      (seqEnc (l.map fun p => seqEnc [encodeString p.1, p.2])).1 ++ q = (es.map fun e => e.keyDoc ++ e.valDoc).flatten ∧
      (∀ e ∈ es, StrDoc e.key e.keyDoc) ∧ (∀ e ∈ es, Parses e.value e.valDoc) ∧
      ((seqEnc (l.map fun p => seqEnc [encodeString p.1, p.2])).2 ≠ none → q ≠ []) ∧
      ((seqEnc (l.map fun p => seqEnc [encodeString p.1, p.2])).2 = none → q = []) := by
  induction l with
  | nil => exact ⟨[], [], rfl, by simp, by simp, by simp [seqEnc], fun _ => rfl⟩
  | cons e l ih =>
    obtain ⟨q, w, hw, hq, hq'⟩ := h e (by simp)
    obtain ⟨k, b, o⟩ := e
    rcases encodeString_completes k (hk (k, b, o) (by simp)) with ⟨rfl, he⟩ | ⟨kb, he, hd⟩
    · refine ⟨ascii "0:" ++ ascii "0:", [⟨[], ascii "0:", .str [], ascii "0:"⟩], ?_, ?_, ?_, ?_, ?_⟩
      · simp [seqEnc, he]
      · intro e he
        simp only [List.mem_singleton] at he
        subst he; exact strDoc_empty
      · intro e he
        simp only [List.mem_singleton] at he
        subst he; exact .str _ _ strDoc_empty
      · intro _; simp [ascii]
      · simp [seqEnc, he]
    · cases o with
      | some er =>
        refine ⟨q, [⟨k, kb, w, b ++ q⟩], by simp [seqEnc, he], ?_, ?_, fun _ => hq (by simp), by simp [seqEnc, he]⟩
        · intro p hp
          simp only [List.mem_singleton] at hp
          subst hp; exact hd
        · intro p hp
          simp only [List.mem_singleton] at hp
          subst hp; exact hw
      | none =>
        obtain ⟨q2, es, h1, h2, h3, h4, h5⟩ := ih (fun e he => hk e (by simp [he])) (fun e he => h e (by simp [he]))
        have hq0 := hq' rfl
        subst hq0
        refine ⟨q2, ⟨k, kb, w, b⟩ :: es, ?_, ?_, ?_, ?_, ?_⟩
        · simp only [List.map_cons, List.flatten_cons, ← h1, he, seqEnc]
          simp
        · intro p hp
          rcases List.mem_cons.mp hp with rfl | hp
          · exact hd
          · exact h2 p hp
        · intro p hp
          rcases List.mem_cons.mp hp with rfl | hp
          · simpa using hw
          · exact h3 p hp
        · simpa [he, seqEnc] using h4
        · simpa [he, seqEnc] using h5

theorem wrapEnc_fst (c : UInt8) (e : Enc) : (wrapEnc c e).1 = [c] ++ e.1 ++ if e.2 = none then [101] else [] := by
  obtain ⟨b, o⟩ := e
  cases o <;> simp [wrapEnc]

theorem encode_completes {v : Value} (h : LenOk v) (hi : AllInts (fun i => -2 ^ 63 < i ∧ i < 2 ^ 63) v) :
    Completes (encode v) := by
  induction h with
  | str s hl =>
    rw [encode]
    rcases encodeString_completes s hl with ⟨-, he⟩ | ⟨b, he, hd⟩ <;> rw [he]
    · exact ⟨ascii "0:", .str [], .str _ _ strDoc_empty, by simp [ascii], by simp⟩
    · exact ⟨[], .str s, by simpa using .str _ _ hd, by simp, by simp⟩
  | int64 i =>
    cases hi with
    | int64 _ hi => rw [encode, encodeInt]; exact ⟨[], .int64 i, by simpa using .int _ _ (intDoc_canon i hi), by simp, by simp⟩
  | intN i =>
    cases hi with
    | intN _ hi => rw [encode, encodeInt]; exact ⟨[], .int64 i, by simpa using .int _ _ (intDoc_canon i hi), by simp, by simp⟩
  | other => exact ⟨ascii "0:", .str [], .str _ _ strDoc_empty, by simp [ascii], by simp [encode]⟩
  | list vs _ ih =>
    cases hi with
    | list _ hi =>
      rw [encode, encodeList_eq]
      obtain ⟨q, ps, h1, h2, h3, h4⟩ := seqEnc_completes (vs.map encode) (by
        intro e he
        obtain ⟨v, hv, rfl⟩ := List.mem_map.mp he
        exact ih v hv (hi v hv))
      have hp := Parses.list ps h2
      by_cases hn : (seqEnc (vs.map encode)).2 = none
      · refine ⟨[], .list (ps.map Prod.fst), ?_, fun h => absurd (wrapEnc_none.mpr hn) h, fun _ => rfl⟩
        rw [h4 hn] at h1
        rw [List.append_nil] at h1 ⊢
        rw [← h1] at hp
        rw [wrapEnc_fst, if_pos hn]
        exact hp
      · refine ⟨q ++ [101], .list (ps.map Prod.fst), ?_, by simp, fun h => absurd (wrapEnc_none.mp h) hn⟩
        rw [wrapEnc_fst, if_neg hn, List.append_nil]
        rw [← h1] at hp
        simpa [ascii] using hp
  | dict es hk _ ih =>
    cases hi with
    | dict _ hi =>
      rw [encode, encodeEntries_eq]
      have hmem : ∀ e ∈ (es.map fun e => (e.1, encode e.2)).mergeSort (fun x y => bytesLe x.1 y.1),
          ∃ x ∈ es, e = (x.1, encode x.2) := by
        intro e he
        obtain ⟨x, hx, rfl⟩ := List.mem_map.mp ((List.mergeSort_perm _ _).mem_iff.mp he)
        exact ⟨x, hx, rfl⟩
      obtain ⟨q, ps, h1, h2, h2', h3, h4⟩ := seqEnc_completes_dict
        ((es.map fun e => (e.1, encode e.2)).mergeSort (fun x y => bytesLe x.1 y.1))
        (by intro e he; obtain ⟨x, hx, rfl⟩ := hmem e he; exact hk x hx)
        (by intro e he; obtain ⟨x, hx, rfl⟩ := hmem e he; exact ih x hx (hi x hx))
      have hp := Parses.dict ps _ h2 h2' (assign_lastWins _)
      rw [encodeSorted]
      by_cases hn : (seqEnc (((es.map fun e => (e.1, encode e.2)).mergeSort (fun x y => bytesLe x.1 y.1)).map
          fun p => seqEnc [encodeString p.1, p.2])).2 = none
      · refine ⟨[], .dict (assign (ps.map fun e => (e.key, e.value))), ?_, fun h => absurd (wrapEnc_none.mpr hn) h, fun _ => rfl⟩
        rw [h4 hn] at h1
        rw [List.append_nil] at h1 ⊢
        rw [← h1] at hp
        rw [wrapEnc_fst, if_pos hn]
        exact hp
      · refine ⟨q ++ [101], .dict (assign (ps.map fun e => (e.key, e.value))), ?_, by simp, fun h => absurd (wrapEnc_none.mp h) hn⟩
        rw [wrapEnc_fst, if_neg hn, List.append_nil]
        rw [← h1] at hp
        simpa [ascii] using hp

/-- re-encoding a document gives it back exactly if it is canonical -/
theorem reencode_iff {v : Value} {b : Bytes} (h : Parses v b) (hb : b.length < 2 ^ 63) : (encode v).1 = b ↔ ∃ w, Canon w b := by
  obtain ⟨hm, hl, hi⟩ := parses_isMap h
  constructor
  · intro he
    cases hn : (encode v).2 with
    | none =>
      obtain ⟨b', h1, h2⟩ := encode_canon (encodable_of_encode hm hn)
      rw [h1] at he
      subst he
      exact ⟨_, h2⟩
    | some e =>
      obtain ⟨q, w, hw, hq, -⟩ := encode_completes hl hi
      rw [he] at hw
      have := (parses_unique h hw (r := q) (r' := []) (by simp)).2.1
      exact absurd this (hq (by rw [hn]; simp))
  · rintro ⟨w, hc⟩
    have hw := encode_of_canon hc
    have hd := decodeValue_canon hc (b.length + 1) [] [] (by omega) (canon_lenOk hc hb)
    obtain ⟨x, hx, hs⟩ := decodeValue_doc h (b.length + 1) [] [] (by omega)
    have hxw : w = x := by
      by_cases ha : AllInts DecInt w
      · have := hd.1 ha
        rw [hx] at this
        simp only [Res.ok.injEq, Prod.mk.injEq] at this
        exact this.1.symm
      · have := hd.2 ha
        rw [hx] at this
        cases this
    subst hxw
    obtain ⟨_, -, hp⟩ := (decode_parses _).1 _ _ _ hx
    rw [encode_same hs hm (parses_isMap hp).1, hw]

end Verif.Bencode
