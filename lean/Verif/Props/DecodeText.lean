import Verif.Lemmas.DecodeText
import Verif.Props.Doc
/-
Property C104: what the errors of Decode (/repo/src/bencode/decode.go) say.
-/
set_option autoImplicit false

namespace Verif.DecodeText
open Verif.Bencode Verif.Bencode.Spec Verif.Size Verif.Utils

/-- **C104**: the texts belong to the errors of `Decode`: a value is returned in the same cases, and otherwise there is a text. -/
theorem C104_same (data sp : Bytes) :
    (∃ v, Decode data sp = .ok v ∧ DecodeT data sp = .value v) ∨ ∃ e t, Decode data sp = .err e ∧ DecodeT data sp = .error t := by
  have h := (forget_all sp (2 * data.length + 1)).1 0 data
  have ht := decodeValue_total sp data (Nat.le_refl _)
  unfold Decode DecodeFuel DecodeT
  rw [← h] at ht ⊢
  revert ht
  cases valueT (2 * data.length + 1) sp 0 data with
  | ok x => exact fun _ => .inl ⟨x.1, rfl, rfl⟩
  | err e k => exact fun _ => .inr ⟨_, _, rfl, rfl⟩
  | panic k => exact fun _ => .inr ⟨_, _, rfl, rfl⟩
  | timeout => exact fun ht => absurd rfl ht

theorem not_live {p : Bytes} (h : NeverV p) : ¬ Live p := by
  rintro ⟨ext, v, b, rest, hp, he⟩
  obtain ⟨w, hw, _⟩ := decodeValue_doc hp (b.length + 1) [] rest (Nat.lt_succ_self _)
  rw [← he] at hw
  exact h _ _ _ _ _ hw

theorem cont_live {p : Bytes} (h : Cont IsDoc p) : Long p ∨ Live p := by
  rcases h with h | ⟨ext, v, h⟩
  · exact .inl h
  · exact .inr ⟨ext, v, p ++ ext, [], h, by simp⟩

theorem natDec_inj {m n : Nat} (h : natDec m = natDec n) : m = n := by
  rw [← digitsVal_natDec m, h, digitsVal_natDec]

/-- the texts of errors with a position -/
def says (what : Bytes) (k : Nat) : Bytes := ascii "decoder error: " ++ what ++ ascii " at byte " ++ natDec k

/-- the texts of errors about numbers -/
def saysNum (fn ds why : Bytes) : Bytes := ascii "strconv." ++ fn ++ ascii ": parsing \"" ++ ds ++ ascii "\": " ++ why

theorem fine_data (data sp : Bytes) : Fine 0 data IsDoc NeverV Tells (Took 0 data IsDoc) (valueT (2 * data.length + 1) sp 0 data) :=
  (fine_all sp (2 * data.length + 1)).1 0 data

/-- every text, with the reason -/
theorem reasons (data sp t : Bytes) (h : DecodeT data sp = .error t) :
    (∃ e j, t = e.text ∧ ¬ Live (data.take (j + 1)) ∧ Tells e (data.take j) ∧ ∀ m, e.pos = some m → m = j ∧ j < data.length ∧ (Long (data.take j) ∨ Live (data.take j))) ∨
    ((Long data ∨ Live data) ∧ ((t = ascii "decoder error: read end of data before completion") ∨ (t = ascii "decoder error: caught panic" ∧ Inside data))) := by
  have hf := fine_data data sp
  unfold DecodeT at h
  revert h hf
  cases valueT (2 * data.length + 1) sp 0 data with
  | ok x => exact fun h _ => by cases h
  | timeout => exact fun h _ => by cases h
  | err e k =>
    intro h hf
    cases h
    obtain ⟨j, rfl, _, hn, ht, hp⟩ := hf
    refine .inl ⟨e, j, rfl, not_live hn, ht, fun m hm => ?_⟩
    obtain ⟨h1, h2, h3⟩ := hp m hm
    exact ⟨by omega, h2, cont_live h3⟩
  | panic k =>
    intro h hf
    cases h
    refine .inr ⟨cont_live hf.1, ?_⟩
    by_cases hk : data.length ≤ k
    · left; rw [if_pos hk]; rfl
    · right; rw [if_neg hk]; exact ⟨rfl, hf.2.resolve_left (by omega)⟩

theorem pos_of_text (e : Why) (what : Bytes) (k : Nat) (hw : what ∈ [ascii "bad string", ascii "bad int", ascii "bad int (leading 0s)"]) (h : says what k = e.text) :
    (what = ascii "bad string" ∧ e = .badString k) ∨ (what = ascii "bad int" ∧ e = .badInt k) ∨ (what = ascii "bad int (leading 0s)" ∧ e = .zeros k) := by
  simp only [List.mem_cons, List.not_mem_nil, or_false] at hw
  rcases hw with rfl | rfl | rfl <;> cases e <;> simp [says, Why.text, decoderError, numError, ascii] at h
  · exact .inl ⟨rfl, by rw [natDec_inj h]⟩
  · exact .inr (.inl ⟨rfl, by rw [natDec_inj h]⟩)
  · exact .inr (.inr ⟨rfl, by rw [natDec_inj h]⟩)

theorem not_end (what : Bytes) (k : Nat) (hw : what ∈ [ascii "bad string", ascii "bad int", ascii "bad int (leading 0s)"]) :
    says what k ≠ ascii "decoder error: read end of data before completion" ∧ says what k ≠ ascii "decoder error: caught panic" := by
  simp only [List.mem_cons, List.not_mem_nil, or_false] at hw
  rcases hw with rfl | rfl | rfl <;> simp [says, ascii]

theorem not_num (e : Why) : e.text ≠ ascii "decoder error: read end of data before completion" ∧ e.text ≠ ascii "decoder error: caught panic" := by
  cases e <;> simp [Why.text, decoderError, numError, ascii]

/-- **C104**: an error with the number of a byte: with that byte the data is wrong, whatever comes behind it; "bad int" is said inside an integer, "(leading 0s)" behind
its first digit if that is a zero. -/
theorem C104_wrong (data sp what : Bytes) (k : Nat) (hw : what ∈ [ascii "bad string", ascii "bad int", ascii "bad int (leading 0s)"])
    (h : DecodeT data sp = .error (says what k)) :
    k < data.length ∧ ¬ Live (data.take (k + 1)) ∧ (what = ascii "bad int" → ∃ ds, InInt (data.take k) ds) ∧
      (what = ascii "bad int (leading 0s)" → InInt (data.take k) (ascii "0")) := by
  rcases reasons data sp _ h with ⟨e, j, ht, hn, htl, hp⟩ | ⟨_, h2⟩
  · rcases pos_of_text e what k hw ht with ⟨rfl, rfl⟩ | ⟨rfl, rfl⟩ | ⟨rfl, rfl⟩
    · obtain ⟨rfl, h1, _⟩ := hp k rfl
      exact ⟨h1, hn, fun h => absurd h (by decide), fun h => absurd h (by decide)⟩
    · obtain ⟨rfl, h1, _⟩ := hp k rfl
      obtain ⟨a, sg, ds, e1, e2, e3⟩ := htl
      exact ⟨h1, hn, fun _ => ⟨ds, a, sg, by rw [e1]; simp [ascii], e2, e3⟩, fun h => absurd h (by decide)⟩
    · obtain ⟨rfl, h1, _⟩ := hp k rfl
      obtain ⟨a, sg, e1, e2⟩ := htl
      exact ⟨h1, hn, fun h => absurd h (by decide), fun _ => ⟨a, sg, by rw [e1]; simp [ascii], e2, by decide⟩⟩
  · rcases h2 with h2 | ⟨h2, _⟩
    · exact absurd h2 (not_end what k hw).1
    · exact absurd h2 (not_end what k hw).2

/-- **C104** (partial: unless there is a number in front of it that is too long): that byte is the first one that is wrong. -/
theorem C104_first_partial (data sp what : Bytes) (k : Nat) (hw : what ∈ [ascii "bad string", ascii "bad int", ascii "bad int (leading 0s)"])
    (h : DecodeT data sp = .error (says what k)) (hl : ¬ Long (data.take k)) : FirstWrong data k := by
  obtain ⟨h1, h2, _⟩ := C104_wrong data sp what k hw h
  rcases reasons data sp _ h with ⟨e, j, ht, hn, htl, hp⟩ | ⟨_, h2⟩
  · rcases pos_of_text e what k hw ht with ⟨rfl, rfl⟩ | ⟨rfl, rfl⟩ | ⟨rfl, rfl⟩ <;>
    · obtain ⟨rfl, _, h3⟩ := hp k rfl
      exact ⟨h1, h3.resolve_left hl, h2⟩
  · rcases h2 with h2 | ⟨h2, _⟩
    · exact absurd h2 (not_end what k hw).1
    · exact absurd h2 (not_end what k hw).2

/-- **C104** (partial: either of two texts): the data could go on, or ends with a number that is too long, exactly if one of these two texts is given; the second one only
inside a string. -/
theorem C104_end_partial (data sp t : Bytes) (h : DecodeT data sp = .error t) :
    (t = ascii "decoder error: read end of data before completion" ∨ t = ascii "decoder error: caught panic" → Long data ∨ Live data) ∧
    (Live data → t = ascii "decoder error: read end of data before completion" ∨ t = ascii "decoder error: caught panic") ∧
    (t = ascii "decoder error: caught panic" → Inside data) := by
  rcases reasons data sp _ h with ⟨e, j, ht, hn, htl, hp⟩ | ⟨h1, h2⟩
  · refine ⟨fun h => ?_, fun hl => ?_, fun h => ?_⟩
    · rcases h with h | h
      · exact absurd (ht.symm.trans h) (not_num e).1
      · exact absurd (ht.symm.trans h) (not_num e).2
    · obtain ⟨ext, v, b, rest, h1, h2⟩ := hl
      exact absurd ⟨data.drop (j + 1) ++ ext, v, b, rest, h1, by rw [← List.append_assoc, List.take_append_drop]; exact h2⟩ hn
    · exact absurd (ht.symm.trans h) (not_num e).2
  · refine ⟨fun _ => h1, fun _ => h2.imp id And.left, fun h => ?_⟩
    rcases h2 with h2 | ⟨_, h2⟩
    · rw [h2] at h; exact absurd h (by decide)
    · exact h2

/-- **C104**: every other text is about a number in the data that is not one, or is too long. -/
theorem C104_number (data sp t : Bytes) (h : DecodeT data sp = .error t) :
    (∃ what k, what ∈ [ascii "bad string", ascii "bad int", ascii "bad int (leading 0s)"] ∧ t = says what k) ∨
    t = ascii "decoder error: read end of data before completion" ∨ t = ascii "decoder error: caught panic" ∨
    (∃ a ds rest, data = a ++ ds ++ ascii ":" ++ rest ∧ ¬ Digits ds ∧
      t = saysNum (ascii "Atoi") ds (if ds = [] then ascii "invalid syntax" else ascii "value out of range")) ∨
    ∃ a sg ds rest, data = a ++ ascii "i" ++ sg ++ ds ++ ascii "e" ++ rest ∧ (sg = [] ∨ sg = ascii "-") ∧ ¬ Digits ds ∧
      t = saysNum (ascii "ParseInt") ds (if ds = [] then ascii "invalid syntax" else ascii "value out of range") := by
  rcases reasons data sp _ h with ⟨e, j, rfl, hn, htl, hp⟩ | ⟨h1, h2⟩
  · have num : ∀ fn ds, numError fn ds = saysNum fn ds (if ds = [] then ascii "invalid syntax" else ascii "value out of range") := by
      intro fn ds
      unfold numError saysNum
      simp only [List.length_eq_zero_iff]
    cases e with
    | badString k => exact .inl ⟨ascii "bad string", k, by simp, by simp [Why.text, decoderError, says, ascii]⟩
    | badInt k => exact .inl ⟨ascii "bad int", k, by simp, by simp [Why.text, decoderError, says, ascii]⟩
    | zeros k => exact .inl ⟨ascii "bad int (leading 0s)", k, by simp, by simp [Why.text, decoderError, says, ascii]⟩
    | atoi ds =>
      obtain ⟨a, e1, e2⟩ := htl
      refine .inr (.inr (.inr (.inl ⟨a, ds, data.drop j, ?_, e2, num _ _⟩)))
      conv => lhs; rw [← List.take_append_drop j data, e1]
      simp [ascii]
    | parseInt ds =>
      obtain ⟨a, sg, e1, e2, e3⟩ := htl
      refine .inr (.inr (.inr (.inr ⟨a, sg, ds, data.drop j, ?_, e2, e3, num _ _⟩)))
      conv => lhs; rw [← List.take_append_drop j data, e1]
      simp [ascii]
  · rcases h2 with h2 | ⟨h2, _⟩
    · exact .inr (.inl h2)
    · exact .inr (.inr (.inl h2))


theorem valueT_digits (f : Nat) (sp : Bytes) (curs : Nat) (d : UInt8) (r : Bytes) (hd : isDigit d = true) :
    valueT (f + 1) sp curs (d :: r) = (stringT sp curs (d :: r)).bind fun x => .ok (.str x.1, x.2) := by
  obtain ⟨h1, h2, h3, _⟩ := isDigit_lit hd
  rw [valueT]
  simp only [if_neg h1, if_neg h2, if_neg h3]

/-- **C104** is false: data that ends inside a string is not said to end too early. -/
theorem C104_refuted_caught (n : Nat) (s : Bytes) (hn : n < 2 ^ 63) (h0 : s ≠ []) (hs : s.length < n) :
    Live (natDec n ++ ascii ":" ++ s) ∧ DecodeT (natDec n ++ ascii ":" ++ s) [] = .error (ascii "decoder error: caught panic") := by
  have hd := natDec_digits n
  have e : natDec n ++ ascii ":" ++ s = natDec n ++ 58 :: s := by simp [ascii]
  have hv : decVal (natDec n) = n := by rw [← digitsVal_eq, digitsVal_natDec]
  have hD : Digits (natDec n) := ⟨natDec_ne_nil n, isDigit_all hd, by rw [hv]; exact hn⟩
  constructor
  · refine ⟨List.replicate (n - s.length) 0, .str (s ++ List.replicate (n - s.length) 0), _, [], .str _ _ ⟨natDec n, hD, ?_, rfl⟩, by simp⟩
    rw [hv, List.length_append, List.length_replicate]; omega
  · rw [e]
    obtain ⟨c, r, hc, hcd⟩ := natDec_cons n
    have hst : stringT [] 0 (natDec n ++ 58 :: s) = .panic ((natDec n).length + 1) := by
      rw [stringT, takeWhile_digits _ _ _ hd isDigit_colon, dropWhile_digits _ _ _ hd isDigit_colon]
      simp only [if_pos, parseDigits_natDec n hn]
      rw [if_neg (by simp; omega), Nat.zero_add]
    unfold DecodeT
    rw [hc, List.cons_append] at hst ⊢
    rw [valueT_digits _ _ _ _ _ hcd, hst]
    simp only [Out.bind]
    rw [if_neg]
    · rfl
    · have : 0 < s.length := List.length_pos_iff.mpr h0
      simp
      omega

theorem all_dropWhile {l : Bytes} (h : ∀ d ∈ l, isDigit d = true) : l.dropWhile isDigit = [] := by
  induction l with
  | nil => rfl
  | cons x l ih => rw [List.dropWhile_cons_of_pos (h x (by simp))]; exact ih (fun d hd => h d (by simp [hd]))

theorem decVal_append_le (ds e : Bytes) : decVal ds ≤ decVal (ds ++ e) := by
  induction ds with
  | nil => exact Nat.zero_le _
  | cons d ds ih =>
    simp only [List.cons_append, decVal]
    have : 10 ^ ds.length ≤ 10 ^ (ds ++ e).length := Nat.pow_le_pow_right (by decide) (by simp)
    exact Nat.add_le_add (Nat.mul_le_mul_left _ this) ih

theorem digits_first {ds ext es r : Bytes} (hd : ∀ d ∈ ds, isDigit d = true) (h : ds ++ ext = es ++ 58 :: r) : ∃ e, es = ds ++ e := by
  induction ds generalizing es with
  | nil => exact ⟨es, rfl⟩
  | cons d ds ih =>
    cases es with
    | nil =>
      have := (List.cons.inj h).1
      have h2 := hd d (by simp)
      rw [this] at h2
      cases h2
    | cons y es =>
      obtain ⟨rfl, h2⟩ := List.cons.inj h
      obtain ⟨e, rfl⟩ := ih (fun d hm => hd d (by simp [hm])) h2
      exact ⟨e, rfl⟩

theorem long_not_live {ds : Bytes} (hd : ∀ d ∈ ds, 48 ≤ d ∧ d ≤ 57) (h : 2 ^ 63 ≤ decVal ds) : ¬ Live ds := by
  have hd' : ∀ d ∈ ds, isDigit d = true := fun d hm => (isDigit_iff d).mpr (hd d hm)
  obtain ⟨x, q, hx⟩ : ∃ x q, ds = x :: q := by
    cases ds with
    | nil => simp [decVal] at h
    | cons x q => exact ⟨x, q, rfl⟩
  have hl := isDigit_lit (hd' x (by rw [hx]; simp))
  rintro ⟨ext, v, b, rest, hp, he⟩
  cases hp with
  | str s b hs =>
    obtain ⟨es, h1, h2, rfl⟩ := hs
    obtain ⟨e, rfl⟩ := digits_first (ext := ext) (es := es) (r := s ++ rest) hd' (by rw [he]; simp [ascii])
    have := decVal_append_le ds e
    have := h1.2.2
    omega
  | int i b hs =>
    obtain ⟨r, rfl⟩ := intDoc_head hs
    rw [hx] at he
    exact hl.2.2.1 (List.cons.inj he).1
  | list vs _ =>
    rw [hx] at he
    simp only [ascii, List.append_assoc] at he
    exact hl.2.1 (List.cons.inj he).1
  | dict es d _ _ _ =>
    rw [hx] at he
    simp only [ascii, List.append_assoc] at he
    exact hl.1 (List.cons.inj he).1

/-- **C104** is false: when a number is too long, its end is said to be wrong, or the data to end too early, though no byte behind the number would help. -/
theorem C104_refuted_first (ds sp : Bytes) (hd : ∀ d ∈ ds, 48 ≤ d ∧ d ≤ 57) (h : 2 ^ 63 ≤ decVal ds) :
    ¬ Live ds ∧ DecodeT ds sp = .error (ascii "decoder error: read end of data before completion") ∧
    ∀ c, ¬ (48 ≤ c ∧ c ≤ 57) → c ≠ 58 → ∀ r, DecodeT (ds ++ c :: r) sp = .error (says (ascii "bad string") ds.length) := by
  have hd' : ∀ d ∈ ds, isDigit d = true := fun d hm => (isDigit_iff d).mpr (hd d hm)
  obtain ⟨x, q, rfl⟩ : ∃ x q, ds = x :: q := by
    cases ds with
    | nil => simp [decVal] at h
    | cons x q => exact ⟨x, q, rfl⟩
  refine ⟨long_not_live hd h, ?_, ?_⟩
  · unfold DecodeT
    rw [valueT_digits _ _ _ _ _ (hd' x (by simp)), stringT]
    have e1 : (x :: q).dropWhile isDigit = [] := by
      exact all_dropWhile hd'
    rw [e1, (takeWhile_all e1).1]
    simp only [Out.bind, Nat.zero_add, Nat.le_refl, if_pos]
    rfl
  · intro c hc h58 r
    have hc' : isDigit c = false := by
      cases hh : isDigit c with
      | false => rfl
      | true => exact absurd ((isDigit_iff c).mp hh) hc
    unfold DecodeT
    rw [List.cons_append, valueT_digits _ _ _ _ _ (hd' x (by simp)), ← List.cons_append, stringT, takeWhile_digits _ _ _ hd' hc', dropWhile_digits _ _ _ hd' hc']
    simp only [if_neg h58, Out.bind, Nat.zero_add]
    simp [Why.text, decoderError, says, ascii]

theorem nested (n : Nat) : ∀ (f : Nat) (sp : Bytes) (curs : Nat), 2 * n + 1 ≤ f → valueT f sp curs (List.replicate n 108 ++ [58]) = .err (.atoi []) (curs + n + 1) := by
  induction n with
  | zero =>
    intro f sp curs hf
    obtain ⟨g, rfl⟩ : ∃ g, f = g + 1 := ⟨f - 1, by omega⟩
    rw [List.replicate_zero, List.nil_append, valueT]
    simp only [if_neg (show ¬ (58 : UInt8) = 100 by decide), if_neg (show ¬ (58 : UInt8) = 108 by decide), if_neg (show ¬ (58 : UInt8) = 105 by decide)]
    rfl
  | succ n ih =>
    intro f sp curs hf
    obtain ⟨g, rfl⟩ : ∃ g, f = g + 1 + 1 := ⟨f - 2, by omega⟩
    rw [List.replicate_succ, List.cons_append, valueT]
    simp only [if_neg (show ¬ (108 : UInt8) = 100 by decide), if_pos]
    have hv := ih g sp (curs + 1) (by omega)
    obtain ⟨c, r, hc, hne⟩ : ∃ c r, List.replicate n (108 : UInt8) ++ [58] = c :: r ∧ c ≠ 101 := by
      cases n with
      | zero => exact ⟨58, [], rfl, by decide⟩
      | succ n => exact ⟨108, _, rfl, by decide⟩
    rw [hc] at hv ⊢
    rw [listT, if_neg hne, hv]
    simp only [Out.bind]
    congr 1
    omega

theorem nested_doc (n : Nat) : IsDoc (List.replicate n 108 ++ ([48, 58] ++ List.replicate n 101)) := by
  induction n with
  | zero => exact str_doc strZero
  | succ n ih =>
    have := items_doc (Items.cons _ _ ih .nil)
    rw [List.append_nil] at this
    rw [List.replicate_succ, List.replicate_succ']
    simpa using this

/-- **C104** is false: an error about a number does not tell where it is.  The same text is given wherever the mistake is. -/
theorem C104_refuted_where (n : Nat) (sp : Bytes) :
    FirstWrong (List.replicate n 108 ++ [58]) n ∧ DecodeT (List.replicate n 108 ++ [58]) sp = .error (ascii "strconv.Atoi: parsing \"\": invalid syntax") := by
  have ht : DecodeT (List.replicate n 108 ++ [58]) sp = .error (ascii "strconv.Atoi: parsing \"\": invalid syntax") := by
    unfold DecodeT
    rw [nested n _ sp 0 (by simp; omega)]
    rfl
  refine ⟨⟨by simp, ?_, ?_⟩, ht⟩
  · rw [List.take_append, List.take_of_length_le (by simp), List.length_replicate, Nat.sub_self, List.take_zero, List.append_nil]
    obtain ⟨v, hv⟩ := nested_doc n
    exact ⟨[48, 58] ++ List.replicate n 101, v, _, [], hv, by simp⟩
  · rw [List.take_of_length_le (by simp)]
    intro hl
    rcases (C104_end_partial _ _ _ ht).2.1 hl with h | h <;> exact absurd h (by decide)

/-! ### examples -/

theorem decVal_lt {ds : Bytes} (h : ∀ d ∈ ds, 48 ≤ d ∧ d ≤ 57) : decVal ds < 10 ^ ds.length := by
  induction ds with
  | nil => decide
  | cons d ds ih =>
    have h1 := ih (fun d hd => h d (by simp [hd]))
    have h2 : d.toNat ≤ 57 := UInt8.le_iff_toNat_le.mp (h d (by simp)).2
    have h3 : (d.toNat - 48) * 10 ^ ds.length ≤ 9 * 10 ^ ds.length := Nat.mul_le_mul_right _ (by omega)
    rw [decVal, List.length_cons, Nat.pow_succ]
    omega

theorem long_length {p : Bytes} (h : Long p) : 19 ≤ p.length := by
  obtain ⟨a, ds, rfl, h1, h2⟩ := h
  have h3 := decVal_lt h1
  rcases Nat.lt_or_ge ds.length 19 with h4 | h4
  · have : 10 ^ ds.length ≤ 10 ^ 18 := Nat.pow_le_pow_right (by decide) (by omega)
    omega
  · rw [List.length_append]; omega

/-- the error and the cursor, or only the cursor, for examples -/
def stops (data sp : Bytes) : Option (Option Why × Nat) :=
  match valueT (2 * data.length + 1) sp 0 data with
  | .ok _ => none
  | .err e k => some (some e, k)
  | .panic k => some (none, k)
  | .timeout => none

theorem stops_text {data sp : Bytes} {e : Why} {k : Nat} (h : stops data sp = some (some e, k)) : DecodeT data sp = .error e.text := by
  unfold stops at h
  unfold DecodeT
  revert h
  cases valueT (2 * data.length + 1) sp 0 data with
  | ok x => nofun
  | err e' k' => intro h; cases h; rfl
  | panic k' => nofun
  | timeout => nofun

theorem stops_end {data sp : Bytes} {k : Nat} (h : stops data sp = some (none, k)) :
    DecodeT data sp = .error (decoderError (if data.length ≤ k then ascii "read end of data before completion" else ascii "caught panic")) := by
  unfold stops at h
  unfold DecodeT
  revert h
  cases valueT (2 * data.length + 1) sp 0 data with
  | ok x => nofun
  | err e' k' => nofun
  | panic k' => intro h; cases h; rfl
  | timeout => nofun

/-- the hypotheses of `C104_wrong` and `C104_first_partial`: an integer inside of a dictionary -/
theorem exBadInt : DecodeT (ascii "d1:ai1xe") [] = .error (says (ascii "bad int") 6) := by
  rw [stops_text (e := .badInt 6) (k := 6) (by decide +kernel)]
  simp [Why.text, decoderError, says, ascii]

example : ¬ Long ((ascii "d1:ai1xe").take 6) := fun h => absurd (long_length h) (by decide)

example : FirstWrong (ascii "d1:ai1xe") 6 := C104_first_partial _ _ _ _ (by simp) exBadInt (fun h => absurd (long_length h) (by decide))

/-- other errors -/
example : stops (ascii "d1:ai01ee") [] = some (some (.zeros 6), 6) := by decide +kernel
example : stops (ascii "di1e1:ae") [] = some (some (.badString 1), 1) := by decide +kernel
example : stops (ascii "li-ee") [7] = some (some (.parseInt []), 4) := by decide +kernel
example : stops (ascii "99999999999999999999:") [] = some (some (.atoi (ascii "99999999999999999999")), 21) := by decide +kernel
example : stops (ascii "li1e") [] = some (none, 4) := by decide +kernel
example : stops (ascii "l5:ab") [] = some (none, 3) := by decide +kernel
example : stops (ascii "l5:ab") [1, 2, 3] = some (none, 8) := by decide +kernel
example : DecodeT (ascii "l5:ab") [] = .error (ascii "decoder error: caught panic") := by rw [stops_end (k := 3) (by decide +kernel)]; rfl
example : DecodeT (ascii "l5:ab") [1, 2, 3] = .error (ascii "decoder error: read end of data before completion") := by
  rw [stops_end (k := 8) (by decide +kernel)]; rfl

/-- the hypotheses of the refutations -/
example : (3 : Nat) < 2 ^ 63 ∧ ascii "ab" ≠ [] ∧ (ascii "ab").length < 3 := by decide
example : (∀ d ∈ ascii "99999999999999999999", 48 ≤ d ∧ d ≤ 57) ∧ 2 ^ 63 ≤ decVal (ascii "99999999999999999999") ∧ ¬ (48 ≤ (120 : UInt8) ∧ (120 : UInt8) ≤ 57) := by decide

end Verif.DecodeText
