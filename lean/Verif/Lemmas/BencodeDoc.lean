import Verif.Lemmas.BencodeDict
import Verif.Lemmas.Decimal
import Verif.Spec.Doc
/-
The decoder accepts exactly the documents of Spec/Doc.lean.
-/
set_option autoImplicit false

namespace Verif.Bencode
open Spec Verif.Utils Verif.Size

theorem digits_isDigit {ds : Bytes} (h : Digits ds) : ∀ d ∈ ds, isDigit d = true :=
  fun d hd => (isDigit_iff d).mpr (h.2.1 d hd)

theorem parseDigits_iff (ds : Bytes) (n : Nat) (hd : ∀ d ∈ ds, isDigit d = true) :
    parseDigits ds = some n ↔ Digits ds ∧ decVal ds = n := by
  unfold parseDigits
  rw [digitsVal_eq]
  constructor
  · intro h
    split at h
    · cases h
    · rename_i h0
      split at h
      · rename_i h1
        cases h
        exact ⟨⟨by intro h; simp [h] at h0, fun d hm => (isDigit_iff d).mp (hd d hm), h1⟩, rfl⟩
      · cases h
  · rintro ⟨⟨h1, -, h3⟩, rfl⟩
    rw [if_neg (by simpa using h1), if_pos h3]

theorem decodeString_doc {s b : Bytes} (h : StrDoc s b) (sp rest : Bytes) :
    decodeString sp (b ++ rest) = .ok (s, rest) := by
  obtain ⟨ds, hds, hv, rfl⟩ := h
  have e : ds ++ ascii ":" ++ s ++ rest = ds ++ (58 : UInt8) :: (s ++ rest) := by simp [ascii]
  rw [e, decodeString, takeWhile_digits _ _ _ (digits_isDigit hds) isDigit_colon,
    dropWhile_digits _ _ _ (digits_isDigit hds) isDigit_colon]
  simp only [if_pos, (parseDigits_iff ds _ (digits_isDigit hds)).mpr ⟨hds, hv⟩]
  rw [if_pos (by simp; omega)]
  simp

theorem decodeString_strDoc {inp s r : Bytes} (h : decodeString [] inp = .ok (s, r)) :
    ∃ b, inp = b ++ r ∧ StrDoc s b := by
  unfold decodeString at h
  split at h
  · cases h
  · rename_i c rr hdw
    obtain ⟨ds, rfl, hds, htw, hc⟩ := split_digits hdw
    split at h
    · rename_i hc58
      subst hc58
      rw [htw] at h
      split at h
      · cases h
      · rename_i n hn
        obtain ⟨h1, h2⟩ := (parseDigits_iff ds n hds).mp hn
        split at h
        · rename_i hle
          simp only [List.length_nil, Nat.add_zero] at hle
          simp only [List.append_nil, Res.ok.injEq, Prod.mk.injEq] at h
          obtain ⟨rfl, rfl⟩ := h
          exact ⟨ds ++ ascii ":" ++ rr.take n, by simp [ascii], ds, h1, by simp; omega, rfl⟩
        · cases h
    · cases h

theorem decodeIntTail_doc (neg : Bool) {ds : Bytes} (h : Digits ds) (rest : Bytes) :
    decodeIntTail neg [] (ds ++ (101 : UInt8) :: rest) = .ok (if neg then -(decVal ds : Int) else (decVal ds : Int), rest) := by
  rw [decodeIntTail, takeWhile_digits _ _ _ (digits_isDigit h) isDigit_e, dropWhile_digits _ _ _ (digits_isDigit h) isDigit_e]
  simp only [if_pos, List.nil_append, (parseDigits_iff ds _ (digits_isDigit h)).mpr ⟨h, rfl⟩]

theorem decodeIntBody_doc (neg : Bool) {ds : Bytes} (h : Digits ds) (hz : ds.head? = some 48 → ds = [48]) (rest : Bytes) :
    decodeIntBody neg (ds ++ (101 : UInt8) :: rest) = .ok (if neg then -(decVal ds : Int) else (decVal ds : Int), rest) := by
  obtain ⟨c, r, rfl⟩ := List.exists_cons_of_ne_nil h.1
  by_cases hc : c = 48
  · subst hc
    have := hz rfl
    rw [this]
    simp [decodeIntBody, decodeIntTail, isDigit_e, parseDigits, digitsVal, decVal]
  · rw [List.cons_append, decodeIntBody.eq_def]
    simp only [if_neg hc]
    rw [← List.cons_append, decodeIntTail_doc neg h]

theorem decodeInt_doc {i : Int} {b : Bytes} (h : IntDoc i b) (rest : Bytes) : decodeInt (b ++ rest) = .ok (i, rest) := by
  obtain ⟨ds, hds, hz, ⟨rfl, rfl⟩ | ⟨rfl, rfl⟩⟩ := h
  · have e : ascii "i" ++ ds ++ ascii "e" ++ rest = (105 : UInt8) :: (ds ++ (101 : UInt8) :: rest) := by simp [ascii]
    obtain ⟨c, r, hcr⟩ := List.exists_cons_of_ne_nil hds.1
    have h45 : c ≠ 45 := (isDigit_lit (digits_isDigit hds c (by rw [hcr]; simp))).2.2.2.2.1
    have := decodeIntBody_doc false hds hz rest
    rw [e, decodeInt.eq_def]
    simp only [if_pos]
    rw [hcr] at this ⊢
    simp only [List.cons_append, if_neg h45] at this ⊢
    exact this
  · have e : ascii "i-" ++ ds ++ ascii "e" ++ rest = (105 : UInt8) :: 45 :: (ds ++ (101 : UInt8) :: rest) := by simp [ascii]
    rw [e, decodeInt.eq_def]
    simp only [if_pos]
    exact decodeIntBody_doc true hds hz rest

theorem decodeIntTail_digits {neg : Bool} {inp r : Bytes} {i : Int} (h : decodeIntTail neg [] inp = .ok (i, r)) :
    ∃ ds, Digits ds ∧ inp = ds ++ (101 : UInt8) :: r ∧ i = if neg then -(decVal ds : Int) else (decVal ds : Int) := by
  unfold decodeIntTail at h
  split at h
  · cases h
  · rename_i c rr hdw
    obtain ⟨ds, rfl, hds, htw, hc⟩ := split_digits hdw
    split at h
    · rename_i hc58
      subst hc58
      rw [htw, List.nil_append] at h
      cases hn : parseDigits ds with
      | none => rw [hn] at h; cases h
      | some n =>
        rw [hn] at h
        simp only [Res.ok.injEq, Prod.mk.injEq] at h
        obtain ⟨hi, rfl⟩ := h
        obtain ⟨h1, h2⟩ := (parseDigits_iff ds n hds).mp hn
        refine ⟨ds, h1, rfl, ?_⟩
        rw [h2]; exact hi.symm
    · cases h

theorem decodeIntBody_digits {neg : Bool} {inp r : Bytes} {i : Int} (h : decodeIntBody neg inp = .ok (i, r)) :
    ∃ ds, Digits ds ∧ (ds.head? = some 48 → ds = [48]) ∧ inp = ds ++ (101 : UInt8) :: r ∧
      i = if neg then -(decVal ds : Int) else (decVal ds : Int) := by
  unfold decodeIntBody at h
  split at h
  · cases h
  · rename_i c rr
    split at h
    · rename_i hc
      subst hc
      split at h
      · cases h
      · rename_i c' r''
        split at h
        · rename_i hc'
          subst hc'
          refine ⟨[48], ⟨by simp, by decide, by decide⟩, fun _ => rfl, ?_⟩
          simp only [decodeIntTail, List.dropWhile, isDigit_e, if_pos, List.takeWhile] at h
          simp only [parseDigits, digitsVal, List.append_nil, List.length_singleton, List.foldl] at h
          rw [if_neg (by decide), if_pos (by decide)] at h
          simp only [Res.ok.injEq, Prod.mk.injEq] at h
          obtain ⟨rfl, rfl⟩ := h
          exact ⟨rfl, by simp [decVal]⟩
        · cases h
    · rename_i hc
      obtain ⟨ds, h1, h2, h3⟩ := decodeIntTail_digits h
      refine ⟨ds, h1, ?_, h2, h3⟩
      intro h0
      obtain ⟨c', q, rfl⟩ := List.exists_cons_of_ne_nil h1.1
      simp only [List.head?_cons, Option.some.injEq] at h0
      rw [List.cons_append] at h2
      exact absurd ((List.cons.inj h2).1.trans h0) hc

theorem decodeInt_intDoc {inp r : Bytes} {i : Int} (h : decodeInt inp = .ok (i, r)) : ∃ b, inp = b ++ r ∧ IntDoc i b := by
  unfold decodeInt at h
  split at h
  · cases h
  · rename_i c rr
    split at h
    · rename_i hc
      subst hc
      split at h
      · cases h
      · rename_i s r'
        split at h
        · rename_i hs
          subst hs
          obtain ⟨ds, h1, h2, h3, h4⟩ := decodeIntBody_digits h
          exact ⟨ascii "i-" ++ ds ++ ascii "e", by rw [h3]; simp [ascii], ds, h1, h2, .inr ⟨rfl, by simpa using h4⟩⟩
        · rename_i hs
          obtain ⟨ds, h1, h2, h3, h4⟩ := decodeIntBody_digits h
          exact ⟨ascii "i" ++ ds ++ ascii "e", by rw [h3]; simp [ascii], ds, h1, h2, .inl ⟨rfl, by simpa using h4⟩⟩
    · cases h

/-! ### maps -/

theorem isLast_iff (es : Dict) (k : Bytes) (v : Value) : IsLast es k v ↔ es.reverse.lookup k = some v := by
  rw [List.lookup_eq_some_iff]
  constructor
  · rintro ⟨pre, post, rfl, hn⟩
    refine ⟨post.reverse, pre.reverse, by simp, ?_⟩
    intro e he
    have : k ≠ e.1 := fun h => hn (h ▸ List.mem_map_of_mem (List.mem_reverse.mp he))
    simpa using this
  · rintro ⟨l1, l2, he, hn⟩
    refine ⟨l2.reverse, l1.reverse, ?_, ?_⟩
    · have := congrArg List.reverse he
      simpa using this
    · intro hm
      obtain ⟨e, hem, rfl⟩ := List.mem_map.mp hm
      simpa using hn e (List.mem_reverse.mp hem)

/-- repeated assignment to a map -/
def assign (es : Dict) : Dict := es.foldl (fun a e => mapSet a e.1 e.2) []

theorem assign_lastWins (es : Dict) : LastWins es (assign es) := by
  have hnd := foldl_mapSet_nodup es [] (by simp)
  refine ⟨hnd, fun k v => ?_⟩
  unfold assign
  rw [← lookup_some_iff hnd, isLast_iff, foldl_mapSet_lookup]
  simp

theorem isLast_key {es : Dict} {k : Bytes} : (∃ v, IsLast es k v) ↔ k ∈ es.map Prod.fst := by
  simp only [isLast_iff]
  cases h : es.reverse.lookup k with
  | none =>
    rw [lookup_none_iff, List.map_reverse, List.mem_reverse] at h
    simp [h]
  | some v =>
    constructor
    · intro _
      rw [List.lookup_eq_some_iff] at h
      obtain ⟨l1, l2, he, -⟩ := h
      have hm : (k, v) ∈ es.reverse := by rw [he]; simp
      exact List.mem_map_of_mem (f := Prod.fst) (List.mem_reverse.mp hm)
    · intro _; exact ⟨v, rfl⟩

theorem isLast_unique {es : Dict} {k : Bytes} {v w : Value} (h : IsLast es k v) (h' : IsLast es k w) : v = w := by
  rw [isLast_iff] at h h'
  rw [h] at h'
  exact Option.some.inj h'

/-- pointwise the same keys and the same values -/
inductive SameItems : Dict → Dict → Prop
  | nil : SameItems [] []
  | cons (k : Bytes) (v w : Value) (es fs : Dict) : Same v w → SameItems es fs → SameItems ((k, v) :: es) ((k, w) :: fs)

theorem sameItems_keys {es fs : Dict} (h : SameItems es fs) : es.map Prod.fst = fs.map Prod.fst := by
  induction h with
  | nil => rfl
  | cons k v w es fs _ _ ih => simp [ih]

theorem sameItems_last {es fs : Dict} (h : SameItems es fs) {k : Bytes} {v w : Value}
    (hv : es.reverse.lookup k = some v) (hw : fs.reverse.lookup k = some w) : Same v w := by
  induction h generalizing v w with
  | nil => simp at hv
  | cons k0 v0 w0 es fs h0 hs ih =>
    rw [List.reverse_cons, List.lookup_append] at hv hw
    have hk : es.reverse.lookup k = none ↔ fs.reverse.lookup k = none := by
      rw [lookup_none_iff, lookup_none_iff, List.map_reverse, List.map_reverse, sameItems_keys hs]
    cases h1 : es.reverse.lookup k with
    | none =>
      rw [h1] at hv
      rw [hk.mp h1] at hw
      simp only [Option.none_or] at hv hw
      by_cases hkk : k = k0
      · subst hkk
        simp only [List.lookup, beq_self_eq_true, Option.some.injEq] at hv hw
        subst hv; subst hw; exact h0
      · simp [List.lookup, beq_false_of_ne hkk] at hv
    | some v1 =>
      cases h2 : fs.reverse.lookup k with
      | none => rw [hk.mpr h2] at h1; cases h1
      | some w1 =>
        rw [h1] at hv
        rw [h2] at hw
        simp only [Option.some_or, Option.some.injEq] at hv hw
        subst hv; subst hw
        exact ih h1 h2

theorem lastWins_same {es fs d d' : Dict} (h : SameItems es fs) (h1 : LastWins es d) (h2 : LastWins fs d') :
    Same (.dict d) (.dict d') := by
  refine .dict d d' ?_ ?_
  · intro k
    have e : ∀ {es d : Dict}, LastWins es d → (k ∈ d.map Prod.fst ↔ k ∈ es.map Prod.fst) := by
      intro es d h
      rw [← isLast_key (es := es)]
      constructor
      · intro hm
        obtain ⟨⟨k, v⟩, he, rfl⟩ := List.mem_map.mp hm
        exact ⟨v, (h.2 _ _).mp he⟩
      · rintro ⟨v, hv⟩
        exact List.mem_map_of_mem (f := Prod.fst) ((h.2 _ _).mpr hv)
    rw [e h1, e h2, sameItems_keys h]
  · intro k v w hv hw
    exact sameItems_last h ((isLast_iff ..).mp ((h1.2 _ _).mp hv)) ((isLast_iff ..).mp ((h2.2 _ _).mp hw))

/-! ### documents are decoded -/

theorem strDoc_head {s b : Bytes} (h : StrDoc s b) : ∃ c r, b = c :: r ∧ isDigit c = true := by
  obtain ⟨ds, hds, -, rfl⟩ := h
  obtain ⟨c, r, rfl⟩ := List.exists_cons_of_ne_nil hds.1
  exact ⟨c, _, rfl, digits_isDigit hds c (by simp)⟩

theorem intDoc_head {i : Int} {b : Bytes} (h : IntDoc i b) : ∃ r, b = 105 :: r := by
  obtain ⟨ds, -, -, ⟨rfl, -⟩ | ⟨rfl, -⟩⟩ := h
  · exact ⟨_, by simp [ascii]; rfl⟩
  · exact ⟨_, by simp [ascii]; rfl⟩

theorem parses_head {v : Value} {b : Bytes} (h : Parses v b) : ∃ c r, b = c :: r ∧ c ≠ 101 := by
  cases h with
  | str s b h =>
    obtain ⟨c, r, rfl, hd⟩ := strDoc_head h
    exact ⟨c, r, rfl, (isDigit_lit hd).2.2.2.1⟩
  | int i b h =>
    obtain ⟨r, rfl⟩ := intDoc_head h
    exact ⟨105, r, rfl, by decide⟩
  | list vs h => exact ⟨108, _, by simp [ascii]; rfl, by decide⟩
  | dict es d _ _ _ => exact ⟨100, _, by simp [ascii]; rfl, by decide⟩

theorem listLoop_docs (vs : List (Value × Bytes)) (hp : ∀ p ∈ vs, Parses p.1 p.2)
    (h : ∀ p ∈ vs, ∀ (f : Nat) (sp rest : Bytes), p.2.length < f →
      ∃ w, decodeValue f sp (p.2 ++ rest) = .ok (w, rest) ∧ Same p.1 w)
    (f : Nat) (sp rest : Bytes) (acc : List Value) (hf : (vs.map Prod.snd).flatten.length + 1 < f) :
    ∃ ws, listLoop f sp ((vs.map Prod.snd).flatten ++ (101 : UInt8) :: rest) acc = .ok (acc ++ ws, rest) ∧
      ws.length = vs.length ∧ ∀ (n : Nat) (p : Value × Bytes) (w : Value), vs[n]? = some p → ws[n]? = some w → Same p.1 w := by
  induction vs generalizing f acc with
  | nil =>
    obtain ⟨f, rfl⟩ : ∃ g, f = g + 1 := ⟨f - 1, by omega⟩
    exact ⟨[], by simp [listLoop_cons], rfl, by simp⟩
  | cons p vs ih =>
    obtain ⟨f, rfl⟩ : ∃ g, f = g + 1 := ⟨f - 1, by omega⟩
    simp only [List.map_cons, List.flatten_cons, List.length_append] at hf
    obtain ⟨c, r, hc, hne⟩ := parses_head (hp p (by simp))
    have hpos : 0 < p.2.length := by rw [hc]; simp
    obtain ⟨w, hw, hs⟩ := h p (by simp) f sp ((vs.map Prod.snd).flatten ++ (101 : UInt8) :: rest) (by omega)
    obtain ⟨ws, h1, h2, h3⟩ := ih (fun q hq => hp q (by simp [hq])) (fun q hq => h q (by simp [hq])) f (acc ++ [w]) (by omega)
    refine ⟨w :: ws, ?_, by simp [h2], ?_⟩
    · rw [List.map_cons, List.flatten_cons, List.append_assoc]
      rw [hc, List.cons_append] at hw ⊢
      rw [listLoop_cons, if_neg hne, hw]
      simp only [Res.ok_bind]
      rw [h1]; simp
    · intro n q w' hq hw'
      cases n with
      | zero =>
        simp only [List.getElem?_cons_zero, Option.some.injEq] at hq hw'
        subst hq; subst hw'; exact hs
      | succ n =>
        rw [List.getElem?_cons_succ] at hq hw'
        exact h3 n q w' hq hw'

theorem dictLoop_docs (es : List Item) (hk : ∀ e ∈ es, StrDoc e.key e.keyDoc)
    (h : ∀ e ∈ es, ∀ (f : Nat) (sp rest : Bytes), e.valDoc.length < f →
      ∃ w, decodeValue f sp (e.valDoc ++ rest) = .ok (w, rest) ∧ Same e.value w)
    (f : Nat) (sp rest : Bytes) (acc : Dict)
    (hf : (es.map fun e => e.keyDoc ++ e.valDoc).flatten.length + 1 < f) :
    ∃ fs, dictLoop f sp ((es.map fun e => e.keyDoc ++ e.valDoc).flatten ++ (101 : UInt8) :: rest) acc =
        .ok (fs.foldl (fun a e => mapSet a e.1 e.2) acc, rest) ∧
      SameItems (es.map fun e => (e.key, e.value)) fs := by
  induction es generalizing f acc with
  | nil =>
    obtain ⟨f, rfl⟩ : ∃ g, f = g + 1 := ⟨f - 1, by omega⟩
    exact ⟨[], by simp [dictLoop_cons], .nil⟩
  | cons e es ih =>
    obtain ⟨f, rfl⟩ : ∃ g, f = g + 1 := ⟨f - 1, by omega⟩
    simp only [List.map_cons, List.flatten_cons, List.length_append] at hf
    have hks := hk e (by simp)
    obtain ⟨c, r, hc, hd⟩ := strDoc_head hks
    have hpos : 0 < e.keyDoc.length := by rw [hc]; simp
    obtain ⟨w, hw, hs⟩ := h e (by simp) f sp ((es.map fun e => e.keyDoc ++ e.valDoc).flatten ++ (101 : UInt8) :: rest) (by omega)
    obtain ⟨fs, h1, h2⟩ := ih (fun q hq => hk q (by simp [hq])) (fun q hq => h q (by simp [hq])) f (mapSet acc e.key w) (by omega)
    refine ⟨(e.key, w) :: fs, ?_, .cons _ _ _ _ _ hs h2⟩
    have hstr := decodeString_doc hks sp (e.valDoc ++ ((es.map fun e => e.keyDoc ++ e.valDoc).flatten ++ (101 : UInt8) :: rest))
    rw [List.map_cons, List.flatten_cons, List.append_assoc, List.append_assoc]
    rw [hc, List.cons_append] at hstr ⊢
    rw [dictLoop_cons, if_neg (isDigit_lit hd).2.2.2.1, hstr]
    simp only [Res.ok_bind]
    rw [hw]
    simp only [Res.ok_bind]
    exact h1

theorem decodeValue_doc {v : Value} {b : Bytes} (h : Parses v b) (f : Nat) (sp rest : Bytes) (hf : b.length < f) :
    ∃ w, decodeValue f sp (b ++ rest) = .ok (w, rest) ∧ Same v w := by
  induction h generalizing f sp rest with
  | str s b hs =>
    obtain ⟨f, rfl⟩ : ∃ g, f = g + 1 := ⟨f - 1, by omega⟩
    obtain ⟨c, r, hc, hd⟩ := strDoc_head hs
    have := decodeString_doc hs sp rest
    have hl := isDigit_lit hd
    refine ⟨.str s, ?_, .str s⟩
    rw [hc, List.cons_append] at this ⊢
    rw [decodeValue_cons, if_neg hl.1, if_neg hl.2.1, if_neg hl.2.2.1, this]
    rfl
  | int i b hs =>
    obtain ⟨f, rfl⟩ : ∃ g, f = g + 1 := ⟨f - 1, by omega⟩
    obtain ⟨r, hc⟩ := intDoc_head hs
    have := decodeInt_doc hs rest
    refine ⟨.int64 i, ?_, .int64 i⟩
    rw [hc, List.cons_append] at this ⊢
    rw [decodeValue_cons, if_neg (by decide), if_neg (by decide), if_pos rfl, this]
    rfl
  | list vs hp ih =>
    obtain ⟨f, rfl⟩ : ∃ g, f = g + 1 := ⟨f - 1, by omega⟩
    have e : ascii "l" ++ (vs.map Prod.snd).flatten ++ ascii "e" ++ rest =
      (108 : UInt8) :: ((vs.map Prod.snd).flatten ++ (101 : UInt8) :: rest) := by simp [ascii]
    have hf' : (vs.map Prod.snd).flatten.length + 1 < f := by
      rw [List.length_append, List.length_append] at hf
      have h1 : (ascii "l").length = 1 := rfl
      have h2 : (ascii "e").length = 1 := rfl
      omega
    obtain ⟨ws, h1, h2, h3⟩ := listLoop_docs vs hp (fun p hp' => ih p hp') f sp rest [] hf'
    refine ⟨.list ws, ?_, ?_⟩
    · rw [e, decodeValue_cons, if_neg (by decide), if_pos rfl, h1]
      rfl
    · refine .list _ _ (by simp [h2]) ?_
      intro n v w hv hw
      rw [List.getElem?_map] at hv
      cases hn : vs[n]? with
      | none => rw [hn] at hv; cases hv
      | some p =>
        rw [hn] at hv
        simp only [Option.map_some, Option.some.injEq] at hv
        subst hv
        exact h3 n p w hn hw
  | dict es d hk hp hlw ih =>
    obtain ⟨f, rfl⟩ : ∃ g, f = g + 1 := ⟨f - 1, by omega⟩
    have e : ascii "d" ++ (es.map fun e => e.keyDoc ++ e.valDoc).flatten ++ ascii "e" ++ rest =
      (100 : UInt8) :: ((es.map fun e => e.keyDoc ++ e.valDoc).flatten ++ (101 : UInt8) :: rest) := by simp [ascii]
    have hf' : (es.map fun e => e.keyDoc ++ e.valDoc).flatten.length + 1 < f := by
      rw [List.length_append, List.length_append] at hf
      have h1 : (ascii "d").length = 1 := rfl
      have h2 : (ascii "e").length = 1 := rfl
      omega
    obtain ⟨fs, h1, h2⟩ := dictLoop_docs es hk (fun p hp' => ih p hp') f sp rest [] hf'
    refine ⟨.dict (assign fs), ?_, lastWins_same h2 hlw (assign_lastWins fs)⟩
    rw [e, decodeValue_cons, if_pos rfl, h1]
    rfl

/-! ### what is decoded is a document -/

theorem decode_parses (f : Nat) :
    (∀ inp v r, decodeValue f [] inp = .ok (v, r) → ∃ b, inp = b ++ r ∧ Parses v b) ∧
    (∀ inp acc vs r, listLoop f [] inp acc = .ok (vs, r) →
      ∃ ps : List (Value × Bytes), vs = acc ++ ps.map Prod.fst ∧ (∀ p ∈ ps, Parses p.1 p.2) ∧
        inp = (ps.map Prod.snd).flatten ++ (101 : UInt8) :: r) ∧
    (∀ inp acc d r, dictLoop f [] inp acc = .ok (d, r) →
      ∃ es : List Item, d = (es.map fun e => (e.key, e.value)).foldl (fun a e => mapSet a e.1 e.2) acc ∧
        (∀ e ∈ es, StrDoc e.key e.keyDoc) ∧ (∀ e ∈ es, Parses e.value e.valDoc) ∧
        inp = (es.map fun e => e.keyDoc ++ e.valDoc).flatten ++ (101 : UInt8) :: r) := by
  induction f with
  | zero =>
    refine ⟨?_, ?_, ?_⟩
    · intro inp v r h; rw [decodeValue_zero] at h; cases h
    · intro inp acc v r h; rw [listLoop_zero] at h; cases h
    · intro inp acc v r h; rw [dictLoop_zero] at h; cases h
  | succ f ih =>
    obtain ⟨ihV, ihL, ihD⟩ := ih
    refine ⟨?_, ?_, ?_⟩
    · intro inp v r h
      cases inp with
      | nil => rw [decodeValue_nil] at h; cases h
      | cons c rr =>
        rw [decodeValue_cons] at h
        by_cases h1 : c = 100
        · rw [if_pos h1] at h
          obtain ⟨⟨es, r1⟩, ha, hb⟩ := Res.bind_eq_ok.mp h
          simp only [Res.ok.injEq, Prod.mk.injEq] at hb
          obtain ⟨rfl, rfl⟩ := hb
          obtain ⟨es', rfl, h2, h3, h4⟩ := ihD _ _ _ _ ha
          refine ⟨_, ?_, .dict es' _ h2 h3 (assign_lastWins _)⟩
          rw [h1, h4]; simp [ascii]
        · rw [if_neg h1] at h
          by_cases h2 : c = 108
          · rw [if_pos h2] at h
            obtain ⟨⟨es, r1⟩, ha, hb⟩ := Res.bind_eq_ok.mp h
            simp only [Res.ok.injEq, Prod.mk.injEq] at hb
            obtain ⟨rfl, rfl⟩ := hb
            obtain ⟨ps, rfl, h3, h4⟩ := ihL _ _ _ _ ha
            refine ⟨_, ?_, .list ps h3⟩
            rw [h2, h4]; simp [ascii]
          · rw [if_neg h2] at h
            by_cases h3 : c = 105
            · rw [if_pos h3] at h
              obtain ⟨⟨i, r1⟩, ha, hb⟩ := Res.bind_eq_ok.mp h
              simp only [Res.ok.injEq, Prod.mk.injEq] at hb
              obtain ⟨rfl, rfl⟩ := hb
              obtain ⟨b, hb, hd⟩ := decodeInt_intDoc ha
              exact ⟨b, hb, .int i b hd⟩
            · rw [if_neg h3] at h
              obtain ⟨⟨s, r1⟩, ha, hb⟩ := Res.bind_eq_ok.mp h
              simp only [Res.ok.injEq, Prod.mk.injEq] at hb
              obtain ⟨rfl, rfl⟩ := hb
              obtain ⟨b, hb, hd⟩ := decodeString_strDoc ha
              exact ⟨b, hb, .str s b hd⟩
    · intro inp acc vs r h
      cases inp with
      | nil => rw [listLoop_nil] at h; cases h
      | cons c rr =>
        rw [listLoop_cons] at h
        by_cases h1 : c = 101
        · rw [if_pos h1] at h
          simp only [Res.ok.injEq, Prod.mk.injEq] at h
          obtain ⟨rfl, rfl⟩ := h
          exact ⟨[], by simp, by simp, by simp [h1]⟩
        · rw [if_neg h1] at h
          obtain ⟨⟨v, r1⟩, ha, hb⟩ := Res.bind_eq_ok.mp h
          obtain ⟨b, hb1, hb2⟩ := ihV _ _ _ ha
          obtain ⟨ps, rfl, h3, h4⟩ := ihL _ _ _ _ hb
          refine ⟨(v, b) :: ps, by simp, ?_, ?_⟩
          · intro p hp
            rcases List.mem_cons.mp hp with rfl | hp
            · exact hb2
            · exact h3 p hp
          · rw [hb1, h4]; simp
    · intro inp acc d r h
      cases inp with
      | nil => rw [dictLoop_nil] at h; cases h
      | cons c rr =>
        rw [dictLoop_cons] at h
        by_cases h1 : c = 101
        · rw [if_pos h1] at h
          simp only [Res.ok.injEq, Prod.mk.injEq] at h
          obtain ⟨rfl, rfl⟩ := h
          exact ⟨[], by simp, by simp, by simp, by simp [h1]⟩
        · rw [if_neg h1] at h
          obtain ⟨⟨k, r0⟩, h0, hb⟩ := Res.bind_eq_ok.mp h
          obtain ⟨⟨v, r1⟩, ha, hb⟩ := Res.bind_eq_ok.mp hb
          obtain ⟨kb, hk1, hk2⟩ := decodeString_strDoc h0
          obtain ⟨b, hb1, hb2⟩ := ihV _ _ _ ha
          obtain ⟨es, rfl, h3, h4, h5⟩ := ihD _ _ _ _ hb
          refine ⟨⟨k, kb, v, b⟩ :: es, by simp, ?_, ?_, ?_⟩
          · intro p hp
            rcases List.mem_cons.mp hp with rfl | hp
            · exact hk2
            · exact h3 p hp
          · intro p hp
            rcases List.mem_cons.mp hp with rfl | hp
            · exact hb2
            · exact h4 p hp
          · rw [hk1, hb1, h5]; simp

/-! ### consequences -/

theorem parses_unique {v w : Value} {b b' r r' : Bytes} (h : Parses v b) (h' : Parses w b') (he : b ++ r = b' ++ r') :
    b = b' ∧ r = r' ∧ Same v w := by
  obtain ⟨x, hx, hs⟩ := decodeValue_doc h (b.length + b'.length + 1) [] r (by omega)
  obtain ⟨y, hy, hs'⟩ := decodeValue_doc h' (b.length + b'.length + 1) [] r' (by omega)
  rw [he, hy] at hx
  simp only [Res.ok.injEq, Prod.mk.injEq] at hx
  obtain ⟨rfl, rfl⟩ := hx
  exact ⟨List.append_cancel_right he, rfl, same_trans hs (same_symm hs')⟩

theorem strDoc_unique {s t b b' r r' : Bytes} (h : StrDoc s b) (h' : StrDoc t b') (he : b ++ r = b' ++ r') :
    b = b' ∧ r = r' ∧ s = t := by
  have hx := decodeString_doc h [] r
  have hy := decodeString_doc h' [] r'
  rw [he, hy] at hx
  simp only [Res.ok.injEq, Prod.mk.injEq] at hx
  obtain ⟨rfl, rfl⟩ := hx
  exact ⟨List.append_cancel_right he, rfl, rfl⟩

theorem parses_isMap {v : Value} {b : Bytes} (h : Parses v b) :
    IsMap v ∧ LenOk v ∧ AllInts (fun i => -2 ^ 63 < i ∧ i < 2 ^ 63) v := by
  induction h with
  | str s b h =>
    obtain ⟨ds, hd, hl, -⟩ := h
    exact ⟨.str s, .str s (by rw [← hl]; exact hd.2.2), .str s⟩
  | int i b h =>
    obtain ⟨ds, hd, -, h⟩ := h
    have := hd.2.2
    refine ⟨.int64 i, .int64 i, .int64 i ?_⟩
    rcases h with ⟨-, rfl⟩ | ⟨-, rfl⟩ <;> omega
  | list vs _ ih =>
    refine ⟨.list _ ?_, .list _ ?_, .list _ ?_⟩ <;>
      (intro v hv; obtain ⟨p, hp, rfl⟩ := List.mem_map.mp hv; have := ih p hp)
    · exact this.1
    · exact this.2.1
    · exact this.2.2
  | dict es d hk _ hl ih =>
    have hm : ∀ e ∈ d, ∃ x ∈ es, x.key = e.1 ∧ x.value = e.2 := by
      rintro ⟨k, v⟩ he
      obtain ⟨pre, post, hes, -⟩ := (hl.2 _ _).mp he
      have hx : (k, v) ∈ es.map fun e => (e.key, e.value) := by rw [hes]; simp
      obtain ⟨x, hx, hxe⟩ := List.mem_map.mp hx
      simp only [Prod.mk.injEq] at hxe
      exact ⟨x, hx, hxe.1, hxe.2⟩
    refine ⟨.dict _ hl.1 ?_, .dict _ ?_ ?_, .dict _ ?_⟩ <;> intro e he <;> obtain ⟨x, hx, h1, h2⟩ := hm e he
    · rw [← h2]; exact (ih x hx).1
    · rw [← h1]
      obtain ⟨ds, hd, hl, -⟩ := hk x hx
      rw [← hl]; exact hd.2.2
    · rw [← h2]; exact (ih x hx).2.1
    · rw [← h2]; exact (ih x hx).2.2

end Verif.Bencode
