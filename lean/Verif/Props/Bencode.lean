import Verif.Lemmas.ValueEq
import Verif.Lemmas.BencodeDict
/-
Properties C01–C09: /repo/src/bencode.
-/
set_option autoImplicit false

namespace Verif.Bencode
open Spec

/-- all integers a Go `int64` can hold -/
abbrev I64 (i : Int) : Prop := InInt64 i

/-- a sample document used in the non-vacuity examples: `{"b": [-5, "x"], "a": int32(3)}` (unsorted) -/
def sample : Value := .dict [(ascii "b", .list [.int64 (-5), .str (ascii "x")]), (ascii "a", .intN 3)]
/-- the same map as `sample`, iterated in the other order -/
def sample' : Value := .dict [(ascii "a", .intN 3), (ascii "b", .list [.int64 (-5), .str (ascii "x")])]

theorem sample_encodable : Encodable (fun i => -2 ^ 63 < i ∧ i < 2 ^ 63) sample := by
  refine .dict _ (by decide) (by decide) ?_
  intro e he
  simp only [List.mem_cons, List.not_mem_nil, or_false] at he
  rcases he with rfl | rfl
  · refine .list _ ?_
    intro v hv
    simp only [List.mem_cons, List.not_mem_nil, or_false] at hv
    rcases hv with rfl | rfl
    · exact .int64 _ (by omega)
    · exact .str _ (by decide)
  · exact .intN _ (by omega)

theorem sample_lenOk : LenOk sample := by
  refine .dict _ (by decide) ?_
  intro e he
  simp only [List.mem_cons, List.not_mem_nil, or_false] at he
  rcases he with rfl | rfl
  · refine .list _ ?_
    intro v hv
    simp only [List.mem_cons, List.not_mem_nil, or_false] at hv
    rcases hv with rfl | rfl
    · exact .int64 _
    · exact .str _ (by decide)
  · exact .intN _

theorem sample_same : Same sample sample' := by
  have hl : Same (.list [.int64 (-5), .str (ascii "x")]) (.list [.int64 (-5), .str (ascii "x")]) := by
    refine .list _ _ rfl ?_
    intro n v w hv hw
    obtain rfl := Option.some.inj (hv.symm.trans hw)
    have := List.mem_of_getElem? hv
    simp only [List.mem_cons, List.not_mem_nil, or_false] at this
    rcases this with rfl | rfl
    · exact .int64 _
    · exact .str _
  refine .dict _ _ (fun k => by simp [or_comm]) ?_
  intro k v w hv hw
  simp only [List.mem_cons, Prod.mk.injEq, List.not_mem_nil, or_false] at hv hw
  rcases hv with ⟨rfl, rfl⟩ | ⟨rfl, rfl⟩ <;> rcases hw with ⟨h, rfl⟩ | ⟨h, rfl⟩
  · exact absurd h (by decide)
  · exact hl
  · exact .intN _
  · exact absurd h (by decide)

theorem sample'_isMap : IsMap sample' := by
  have := encodable_isMap sample_encodable
  cases this with
  | dict _ _ h =>
    refine .dict _ (by decide) ?_
    intro e he
    refine h e ?_
    simp only [List.mem_cons, List.not_mem_nil, or_false] at he ⊢
    exact he.symm

theorem sample_encode : Encode sample = (ascii "d1:ai3e1:bli-5e1:xee", none) := by
  simp [sample, Encode, encode, encodeEntries, encodeSorted, List.mergeSort, List.MergeSort.Internal.splitInTwo,
    bytesLe, ascii, wrapEnc, seqEnc, encodeList, encodeString, encodeInt, natDec_lt, intDec]

/-! ### C01 -/

/-- C01 (partial: only integers above the int64 minimum).  Encode succeeds and Decode of the bytes —
whatever is in the slice's spare capacity — is the same value.
Full statement (false, see `C01_refuted_minInt64`): the same with `InInt64` as condition on integers. -/
theorem C01_roundtrip_partial (v : Value) (h : Encodable (fun i => -2 ^ 63 < i ∧ i < 2 ^ 63) v)
    (hl : LenOk v) :
    ∃ b, Encode v = (b, none) ∧ ∀ sp, ∃ w, Decode b sp = .ok w ∧ Same v w := by
  obtain ⟨b, hb, hc⟩ := encode_canon h
  refine ⟨b, hb, fun sp => ⟨norm v, ?_, same_norm (encodable_isMap h)⟩⟩
  have := (decode_canon hc (lenOk_norm hl) [] sp).1
  rw [List.append_nil] at this
  refine this (allInts_norm' ?_)
  refine encodable_allInts (P := DecInt) (h.mono ?_)
  intro i hi; unfold DecInt; omega

example : Encodable (fun i => -2 ^ 63 < i ∧ i < 2 ^ 63) sample ∧ LenOk sample ∧
    Encode sample = (ascii "d1:ai3e1:bli-5e1:xee", none) :=
  ⟨sample_encodable, sample_lenOk, sample_encode⟩

/-- C01, exact: a value made of non-empty strings, int64s, lists and maps is encoded, and decoding
gives it back *iff* no integer in it is the int64 minimum. -/
theorem C01_roundtrip_iff (v : Value) (h : Encodable I64 v) (hl : LenOk v) (sp : Bytes) :
    ∃ b, Encode v = (b, none) ∧
      ((∃ w, Decode b sp = .ok w ∧ Same v w) ↔ AllInts (fun i => i ≠ -2 ^ 63) v) := by
  obtain ⟨b, hb, hc⟩ := encode_canon h
  have hd := decode_canon hc (lenOk_norm hl) [] sp
  rw [List.append_nil] at hd
  have hs := same_norm (encodable_isMap h)
  refine ⟨b, hb, ?_, ?_⟩
  · rintro ⟨w, hw, -⟩
    have ha : AllInts DecInt (norm v) := by
      apply Classical.byContradiction
      intro hn
      rw [hd.2 hn] at hw
      cases hw
    exact (allInts_same (same_symm hs) ha).mono (fun i hi => by unfold DecInt at hi; omega)
  · intro ha
    refine ⟨norm v, hd.1 (allInts_norm' ?_), hs⟩
    exact ((encodable_allInts h).and ha).mono (fun i hi => by
      have := hi.1; unfold I64 InInt64 at this; unfold DecInt; have := hi.2; omega)

example : Encodable I64 (.int64 (-2 ^ 63)) ∧ ¬ AllInts (fun i => i ≠ -2 ^ 63) (.int64 (-2 ^ 63)) :=
  ⟨.int64 _ (by unfold I64 InInt64; omega), fun h => by cases h with | int64 _ h => exact h rfl⟩

/-- C01 refuted: the int64 minimum is encoded without error and the result cannot be decoded. -/
theorem C01_refuted_minInt64 :
    ∃ v b, Encodable I64 v ∧ LenOk v ∧ Encode v = (b, none) ∧ ∀ sp, ∃ e, Decode b sp = .err e := by
  have he : Encodable I64 (.int64 (-2 ^ 63)) := .int64 _ (by unfold I64 InInt64; omega)
  obtain ⟨b, hb, hc⟩ := encode_canon he
  refine ⟨_, b, he, .int64 _, hb, fun sp => ⟨.strconv, ?_⟩⟩
  have := (decode_canon hc (lenOk_norm (.int64 _)) [] sp).2
  rw [List.append_nil] at this
  refine this (fun ha => ?_)
  rw [norm] at ha
  have := allInts_int.mp ha
  unfold DecInt at this
  omega

/-- C01: Encode reports success exactly on the encodable values (no empty string or key, no foreign
type anywhere). -/
theorem C01_encode_succeeds_iff (v : Value) (h : IsMap v) :
    (Encode v).2 = none ↔ Encodable (fun _ => True) v :=
  ⟨encodable_of_encode h, fun he => by obtain ⟨b, hb, -⟩ := encode_canon he; rw [Encode, hb]⟩

example : IsMap sample ∧ (Encode sample).2 = none ∧ IsMap (.list [.str []]) ∧ (Encode (.list [.str []])).2 ≠ none :=
  ⟨encodable_isMap sample_encodable, by rw [sample_encode], .list _ (by
    intro v hv; rw [List.mem_singleton] at hv; subst hv; exact .str _), by
    simp [Encode, encode, encodeList, encodeString, seqEnc, wrapEnc]⟩

/-! ### C02 -/

/-- C02: every canonical document is accepted and re-encoded to exactly the same bytes. -/
theorem C02_canonical_reencode (v : Value) (b sp : Bytes) (h : Canon v b) (hb : b.length < 2 ^ 63)
    (hi : AllInts (fun i => -2 ^ 63 < i ∧ i < 2 ^ 63) v) :
    ∃ w, Decode b sp = .ok w ∧ w = v ∧ Encode w = (b, none) := by
  refine ⟨v, ?_, rfl, encode_of_canon h⟩
  have := (decode_canon h (canon_lenOk h hb) [] sp).1
  rw [List.append_nil] at this
  exact this (hi.mono fun i hi => by unfold DecInt; omega)

example : ∃ b, Canon (norm sample) b ∧ b.length < 2 ^ 63 ∧
    AllInts (fun i => -2 ^ 63 < i ∧ i < 2 ^ 63) (norm sample) := by
  obtain ⟨b, hb, hc⟩ := encode_canon sample_encodable
  refine ⟨b, hc, ?_, allInts_norm' (encodable_allInts sample_encodable)⟩
  have : b = ascii "d1:ai3e1:bli-5e1:xee" := by
    have h := sample_encode; rw [Encode, hb] at h; exact (Prod.mk.inj h).1
  rw [this]; decide

/-! ### C03 -/

/-- C03: two values that are equal when dictionaries are read as maps produce the same bytes and the
same success or failure. -/
theorem C03_map_order_irrelevant (v w : Value) (h : Same v w) (hv : IsMap v) (hw : IsMap w) :
    Encode v = Encode w := encode_same h hv hw

example : Same sample sample' ∧ sample ≠ sample' ∧ IsMap sample :=
  ⟨sample_same, by simp [sample, sample', ascii], encodable_isMap sample_encodable⟩

/-- C03: what Encode produces is a canonical document — keys of every dictionary strictly increasing —
for the same map. -/
theorem C03_keys_sorted (v : Value) (hv : IsMap v) (b : Bytes) (h : Encode v = (b, none)) :
    ∃ w, Same v w ∧ Canon w b := by
  have he := encodable_of_encode hv (by rw [Encode] at h; rw [h])
  obtain ⟨b', hb, hc⟩ := encode_canon he
  rw [Encode, hb] at h
  obtain ⟨rfl, -⟩ := Prod.mk.inj h
  exact ⟨norm v, same_norm hv, hc⟩

example : IsMap sample ∧ Encode sample = (ascii "d1:ai3e1:bli-5e1:xee", none) :=
  ⟨encodable_isMap sample_encodable, sample_encode⟩

/-! ### C04 -/

/-- C04: equal bytes imply equal values, and an encoding that is a prefix of another one is that one. -/
theorem C04_unambiguous (v w : Value) (b b' : Bytes) (hv : IsMap v) (hw : IsMap w)
    (h : Encode v = (b, none)) (h' : Encode w = (b', none)) (hp : b <+: b') :
    b = b' ∧ Same v w := by
  have he := encodable_of_encode hv (by rw [Encode] at h; rw [h])
  have he' := encodable_of_encode hw (by rw [Encode] at h'; rw [h'])
  obtain ⟨b1, hb, hc⟩ := encode_canon he
  obtain ⟨b2, hb', hc'⟩ := encode_canon he'
  rw [Encode, hb] at h
  rw [Encode, hb'] at h'
  obtain ⟨rfl, -⟩ := Prod.mk.inj h
  obtain ⟨rfl, -⟩ := Prod.mk.inj h'
  obtain ⟨t, ht⟩ := hp
  obtain ⟨hvw, hbb, -⟩ := canon_unique hc hc' (r := t) (r' := []) (by rw [ht, List.append_nil])
  refine ⟨hbb, same_trans (same_norm hv) ?_⟩
  rw [hvw]
  exact same_symm (same_norm hw)

example : Encode sample = Encode sample' ∧ sample ≠ sample' ∧ (Encode sample).2 = none :=
  ⟨C03_map_order_irrelevant _ _ sample_same (encodable_isMap sample_encodable) sample'_isMap,
    by simp [sample, sample', ascii], by rw [sample_encode]⟩

/-! ### C05 -/

/-- C05: Decode finishes (any further fuel gives the same outcome) with a value or an error. -/
theorem C05_decode_total (data sp : Bytes) :
    ((∃ v, Decode data sp = .ok v) ∨ ∃ e, Decode data sp = .err e) ∧
    ∀ fuel, 2 * data.length + 1 ≤ fuel → DecodeFuel fuel data sp = Decode data sp := by
  refine ⟨?_, fun f hf => decodeFuel_eq sp data hf⟩
  have h := decodeValue_total sp data (Nat.le_refl _)
  unfold Decode DecodeFuel
  split
  · exact .inl ⟨_, rfl⟩
  · exact .inr ⟨_, rfl⟩
  · exact .inr ⟨_, rfl⟩
  · rename_i h'; exact absurd h' h

/-- C05: every string or key inside a decoded list or dictionary is a contiguous part of the input. -/
theorem C05_strings_from_input (data sp : Bytes) (v : Value) (h : Decode data sp = .ok v)
    (hv : (∃ vs, v = .list vs) ∨ ∃ es, v = .dict es) (s : Bytes) (hs : Within s v) : s <:+: data := by
  obtain ⟨c, r, rfl, hc⟩ := decode_nonstr_head h (by rintro s rfl; rcases hv with ⟨_, h⟩ | ⟨_, h⟩ <;> cases h)
  rw [decode_spare_eq c r sp hc] at h
  obtain ⟨r', hr⟩ := (decode_ok_iff _ _ _).mp h
  obtain ⟨p, -, he, hw, -⟩ := (decode_ext _).1 _ _ _ hr
  rw [he]
  exact infix_left (hw s hs)

example : ∃ vs, Decode (ascii "l2:hi3:abceJUNK") [1, 2] = .ok (.list vs) ∧ Within (ascii "abc") (.list vs) :=
  ⟨[.str (ascii "hi"), .str (ascii "abc")], by decide +kernel, .list _ _ (by simp) .str⟩

/-! ### C06 -/

/-- C06 refuted: a slice holding `10:hi` in front of eight zero bytes of spare capacity decodes to a
ten-byte string; without the spare capacity it is an error. -/
theorem C06_refuted_string :
    ∃ data sp : Bytes, Decode data [] = .err .decoder ∧
      Decode data sp = .ok (.str (ascii "hi" ++ [0, 0, 0, 0, 0, 0, 0, 0])) :=
  ⟨ascii "10:hi", [0, 0, 0, 0, 0, 0, 0, 0], by decide +kernel, by decide +kernel⟩

/-- C06 (partial: documents that do not start with a digit, i.e. are not a top-level string).
Spare capacity has no influence, error kind included. -/
theorem C06_visible_bytes_only_partial (data sp : Bytes)
    (h : ∀ c, data.head? = some c → ¬ (48 ≤ c ∧ c ≤ 57)) : Decode data sp = Decode data [] := by
  cases data with
  | nil => rfl
  | cons c r =>
    have hc : isDigit c = false := by
      have := h c rfl
      rw [Bool.eq_false_iff]
      intro hd
      unfold isDigit at hd
      rw [Bool.and_eq_true, decide_eq_true_iff, decide_eq_true_iff] at hd
      exact this hd
    by_cases h1 : c = 100 ∨ c = 108 ∨ c = 105
    · exact decode_spare_eq c r sp h1
    · have e : decodeString sp (c :: r) = decodeString [] (c :: r) := by
        unfold decodeString
        rw [List.dropWhile_cons_of_neg (by simp [hc]), List.takeWhile_cons_of_neg (by simp [hc])]
        rfl
      unfold Decode DecodeFuel
      rw [decodeValue_cons, decodeValue_cons]
      have h100 : c ≠ 100 := fun h => h1 (.inl h)
      have h108 : c ≠ 108 := fun h => h1 (.inr (.inl h))
      have h105 : c ≠ 105 := fun h => h1 (.inr (.inr h))
      simp only [if_neg h100, if_neg h108, if_neg h105, e]

example : (∀ c, (ascii "d1:a99:xe").head? = some c → ¬ (48 ≤ c ∧ c ≤ 57)) := by
  intro c hc; simp [ascii] at hc; subst hc; decide

/-- C06, the exact extent of the deviation: either spare capacity makes no difference, or the document
is an (invalid) top-level string which is completed from the spare capacity. -/
theorem C06_deviation_only_for_strings (data sp : Bytes) :
    Decode data sp = Decode data [] ∨
      (Decode data [] = .err .decoder ∧ ∃ s, Decode data sp = .ok (.str s) ∧ s <:+: data ++ sp) := by
  rcases (decode_spare sp (2 * data.length + 1)).1 data (Nat.le_refl _) with h | ⟨v, h, h'⟩
  · left; unfold Decode DecodeFuel; rw [h]
  · right
    have hd : Decode data sp = .ok v := by unfold Decode DecodeFuel; rw [h]
    have hd' : Decode data [] = .err .decoder := by unfold Decode DecodeFuel; rw [h']
    refine ⟨hd', ?_⟩
    have hstr : ∃ s, v = .str s := by
      apply Classical.byContradiction
      intro hn
      obtain ⟨c, r, rfl, hc⟩ := decode_nonstr_head hd (fun s hs => hn ⟨s, hs⟩)
      rw [decode_spare_eq c r sp hc, hd'] at hd
      cases hd
    obtain ⟨s, rfl⟩ := hstr
    exact ⟨s, hd, decode_string_infix h⟩

example : Decode (ascii "10:hi") [] = .err .decoder := by decide +kernel

/-! ### C07 -/

/-- C07: Decode of a proper prefix of an encoding, held in a slice of exactly that size, is an error. -/
theorem C07_truncation_rejected_partial (v : Value) (hv : IsMap v) (hl : LenOk v) (b p q : Bytes)
    (h : Encode v = (b, none)) (hb : b = p ++ q) (hq : q ≠ []) : ∃ e, Decode p [] = .err e := by
  have he := encodable_of_encode hv (by rw [Encode] at h; rw [h])
  obtain ⟨b', hb', hc⟩ := encode_canon he
  rw [Encode, hb'] at h
  obtain ⟨rfl, -⟩ := Prod.mk.inj h
  rcases (C05_decode_total p []).1 with ⟨w, hw⟩ | h
  · exact absurd hw (canon_prefix_rejected hc (lenOk_norm hl) hb hq w)
  · exact h

example : Encode sample = (ascii "d1:ai3e1:bli" ++ ascii "-5e1:xee", none) ∧ ascii "-5e1:xee" ≠ [] :=
  ⟨by rw [sample_encode]; decide, by decide⟩

/-- C07 for integers, lists and dictionaries: the same for a slice with arbitrary spare capacity, in
particular for `enc[:n]`, whose spare capacity holds the rest of the encoding. -/
theorem C07_truncation_rejected_any_capacity (v : Value) (hv : IsMap v) (hl : LenOk v) (hns : ∀ s, v ≠ .str s)
    (b p q : Bytes) (h : Encode v = (b, none)) (hb : b = p ++ q) (hq : q ≠ []) (sp : Bytes) :
    ∃ e, Decode p sp = .err e := by
  obtain ⟨e, he⟩ := C07_truncation_rejected_partial v hv hl b p q h hb hq
  rcases C06_deviation_only_for_strings p sp with h' | ⟨-, s, hs, -⟩
  · exact ⟨e, by rw [h', he]⟩
  · exfalso
    obtain ⟨w, hsame, hc⟩ := C03_keys_sorted v hv b h
    have hwns : ∀ s, w ≠ .str s := by
      rintro s rfl
      cases hsame with | str => exact hns _ rfl
    obtain ⟨c, r, hbc, hcc⟩ := canon_nonstr_head hc hwns
    cases p with
    | nil => exact absurd hs (by simp [Decode, DecodeFuel, decodeValue])
    | cons c' p =>
      rw [hbc, List.cons_append] at hb
      obtain ⟨rfl, -⟩ := List.cons.inj hb
      rw [decode_spare_eq c p sp hcc, he] at hs
      cases hs

example : (∀ s, sample ≠ .str s) ∧ Encode sample = (ascii "d1:ai3e1:bli" ++ ascii "-5e1:xee", none) :=
  ⟨(by intro s h; cases h), by rw [sample_encode]; decide⟩

/-- C07 refuted in general: truncating the encoding of a string by re-slicing (`enc[:4]`) leaves the rest
in the spare capacity, and Decode returns the *whole* string. -/
theorem C07_refuted_resliced_string :
    ∃ v b p q, Encode v = (b, none) ∧ b = p ++ q ∧ q ≠ [] ∧ Decode p q = .ok v :=
  ⟨.str (ascii "hello"), ascii "5:hello", ascii "5:he", ascii "llo",
    by simp [Encode, encode, encodeString, natDec_lt, ascii], by decide, by decide, by decide +kernel⟩

/-! ### C08 -/

/-- C08: a successful Decode is not changed by appending bytes (nor by spare capacity behind them). -/
theorem C08_suffix_ignored (data ext sp : Bytes) (v : Value) (h : Decode data [] = .ok v) :
    Decode (data ++ ext) sp = .ok v := decode_append h ext sp

example : Decode (ascii "i42e") [] = .ok (.int64 42) := by decide +kernel

/-- C08 for slices with spare capacity: holds for every result that is not a string. -/
theorem C08_suffix_ignored_any_capacity (data ext sp sp' : Bytes) (v : Value) (hns : ∀ s, v ≠ .str s)
    (h : Decode data sp = .ok v) : Decode (data ++ ext) sp' = .ok v := by
  obtain ⟨c, r, rfl, hc⟩ := decode_nonstr_head h hns
  rw [decode_spare_eq c r sp hc] at h
  exact decode_append h ext sp'

example : Decode (ascii "l1:xe") [7, 7] = .ok (.list [.str (ascii "x")]) := by decide +kernel

/-! ### C09 -/

/-- C09: GetString is exact. -/
theorem C09_getString (d : Dict) (hd : (d.map Prod.fst).Nodup) (k : Bytes) :
    (∀ s, Dict.getString d k = .ok s ↔ (k, .str s) ∈ d) ∧
    (Dict.getString d k = .err .missingKey ↔ k ∉ d.map Prod.fst) ∧
    (Dict.getString d k = .err .badType ↔ ∃ v, (k, v) ∈ d ∧ ∀ s, v ≠ .str s) := by
  simp only [← lookup_some_iff hd, ← lookup_none_iff, Dict.getString, Dict.get]
  cases d.lookup k with
  | none => simp
  | some v => cases v <;> simp

/-- C09: GetInt is exact. -/
theorem C09_getInt (d : Dict) (hd : (d.map Prod.fst).Nodup) (k : Bytes) :
    (∀ i, Dict.getInt d k = .ok i ↔ (k, .int64 i) ∈ d) ∧
    (Dict.getInt d k = .err .missingKey ↔ k ∉ d.map Prod.fst) ∧
    (Dict.getInt d k = .err .badType ↔ ∃ v, (k, v) ∈ d ∧ ∀ i, v ≠ .int64 i) := by
  simp only [← lookup_some_iff hd, ← lookup_none_iff, Dict.getInt, Dict.get]
  cases d.lookup k with
  | none => simp
  | some v => cases v <;> simp

/-- C09: GetDict is exact. -/
theorem C09_getDict (d : Dict) (hd : (d.map Prod.fst).Nodup) (k : Bytes) :
    (∀ e, Dict.getDict d k = .ok e ↔ (k, .dict e) ∈ d) ∧
    (Dict.getDict d k = .err .missingKey ↔ k ∉ d.map Prod.fst) ∧
    (Dict.getDict d k = .err .badType ↔ ∃ v, (k, v) ∈ d ∧ ∀ e, v ≠ .dict e) := by
  simp only [← lookup_some_iff hd, ← lookup_none_iff, Dict.getDict, Dict.get]
  cases d.lookup k with
  | none => simp
  | some v => cases v <;> simp

/-- C09: GetList is exact. -/
theorem C09_getList (d : Dict) (hd : (d.map Prod.fst).Nodup) (k : Bytes) :
    (∀ l, Dict.getList d k = .ok l ↔ (k, .list l) ∈ d) ∧
    (Dict.getList d k = .err .missingKey ↔ k ∉ d.map Prod.fst) ∧
    (Dict.getList d k = .err .badType ↔ ∃ v, (k, v) ∈ d ∧ ∀ l, v ≠ .list l) := by
  simp only [← lookup_some_iff hd, ← lookup_none_iff, Dict.getList, Dict.get]
  cases d.lookup k with
  | none => simp
  | some v => cases v <;> simp

/-- C09 (partial: non-negative integers): GetUint returns the stored integer iff it is not negative;
errors as for GetInt. -/
theorem C09_getUint_partial (d : Dict) (hd : (d.map Prod.fst).Nodup) (k : Bytes) :
    (∀ i, InInt64 i → (k, .int64 i) ∈ d →
      ∃ n, Dict.getUint d k = .ok n ∧ ((n : Int) = i ↔ 0 ≤ i)) ∧
    (Dict.getUint d k = .err .missingKey ↔ k ∉ d.map Prod.fst) ∧
    (Dict.getUint d k = .err .badType ↔ ∃ v, (k, v) ∈ d ∧ ∀ i, v ≠ .int64 i) := by
  obtain ⟨h1, h2, h3⟩ := C09_getInt d hd k
  refine ⟨?_, ?_, ?_⟩
  · intro i hi hm
    refine ⟨(i % 2 ^ 64).toNat, ?_, ?_⟩
    · rw [Dict.getUint, (h1 i).mpr hm]; rfl
    · unfold InInt64 at hi; omega
  · rw [← h2, Dict.getUint]; cases Dict.getInt d k <;> simp
  · rw [← h3, Dict.getUint]; cases Dict.getInt d k <;> simp

example : (([(ascii "a", .int64 7), (ascii "b", .str [1])] : Dict).map Prod.fst).Nodup := by decide

/-- C09 refuted for GetUint: a stored -1 is returned as 2^64-1. -/
theorem C09_refuted_getUint :
    ∃ (d : Dict) (k : Bytes), (k, .int64 (-1)) ∈ d ∧ Dict.getUint d k = .ok (2 ^ 64 - 1) :=
  ⟨[(ascii "interval", .int64 (-1))], ascii "interval", by simp, rfl⟩

/-- C09: decoding a dictionary document in which keys may repeat (and come in any order) gives the map
that holds, for every key, the value of its last occurrence. -/
theorem C09_last_duplicate_wins (es : Dict) (b rest sp : Bytes) (h : RawEntries es b)
    (hk : ∀ e ∈ es, e.1.length < 2 ^ 63) (hl : ∀ e ∈ es, LenOk e.2)
    (hi : ∀ e ∈ es, AllInts (fun i => -2 ^ 63 < i ∧ i < 2 ^ 63) e.2) :
    ∃ d, Decode (ascii "d" ++ b ++ ascii "e" ++ rest) sp = .ok (.dict d) ∧ (d.map Prod.fst).Nodup ∧
      ∀ k v, (k, v) ∈ d ↔ ∃ pre post, es = pre ++ (k, v) :: post ∧ k ∉ post.map Prod.fst := by
  have hnd := foldl_mapSet_nodup es [] (by simp)
  refine ⟨es.foldl (fun a e => mapSet a e.1 e.2) [], ?_, hnd, ?_⟩
  · have e : ascii "d" ++ b ++ ascii "e" ++ rest = (100 : UInt8) :: (b ++ (101 : UInt8) :: rest) := by simp [ascii]
    unfold Decode DecodeFuel
    rw [e, decodeValue_cons, if_pos rfl,
      dictLoop_raw h _ sp rest [] (by simp; omega) hk hl
        (fun e he => (hi e he).mono (fun i hi => by unfold DecInt; omega))]
    rfl
  · intro k v
    rw [← lookup_some_iff hnd, foldl_mapSet_lookup]
    simp only [List.lookup, Option.or_none]
    rw [List.lookup_eq_some_iff]
    constructor
    · rintro ⟨l1, l2, he, hn⟩
      refine ⟨l2.reverse, l1.reverse, ?_, ?_⟩
      · have := congrArg List.reverse he
        simpa using this
      · intro hm
        obtain ⟨e, hem, rfl⟩ := List.mem_map.mp hm
        simpa using hn e (List.mem_reverse.mp hem)
    · rintro ⟨pre, post, rfl, hn⟩
      refine ⟨post.reverse, pre.reverse, by simp, ?_⟩
      intro e he
      have : k ≠ e.1 := fun h => hn (h ▸ List.mem_map_of_mem (List.mem_reverse.mp he))
      simpa using this

example : ∃ b, RawEntries [(ascii "k", .int64 1), (ascii "a", .int64 5), (ascii "k", .int64 2)] b ∧
    Decode (ascii "d1:ki1e1:ai5e1:ki2ee") [] = .ok (.dict [(ascii "k", .int64 2), (ascii "a", .int64 5)]) :=
  ⟨_, .cons _ _ _ _ _ (.int 1) (.cons _ _ _ _ _ (.int 5) (.cons _ _ _ _ _ (.int 2) .nil)), by decide +kernel⟩

end Verif.Bencode
