import Verif.Lemmas.BencodeBasic
set_option autoImplicit false

namespace Verif.Bencode
open Spec

theorem isDigit_colon : isDigit 58 = false := rfl
theorem isDigit_e : isDigit 101 = false := rfl

theorem isDigit_lit {c : UInt8} (h : isDigit c = true) :
    c ≠ 100 ∧ c ≠ 108 ∧ c ≠ 105 ∧ c ≠ 101 ∧ c ≠ 45 ∧ c ≠ 58 := by
  refine ⟨?_, ?_, ?_, ?_, ?_, ?_⟩ <;> rintro rfl <;> revert h <;> decide

theorem decodeString_canon (sp s rest : Bytes) (h : s.length < 2 ^ 63) :
    decodeString sp (decNat s.length ++ ascii ":" ++ s ++ rest) = .ok (s, rest) := by
  have e : decNat s.length ++ ascii ":" ++ s ++ rest = natDec s.length ++ (58 : UInt8) :: (s ++ rest) := by
    rw [decNat_eq]; simp [ascii]
  rw [e, decodeString, takeWhile_digits _ _ _ (natDec_digits _) isDigit_colon,
    dropWhile_digits _ _ _ (natDec_digits _) isDigit_colon]
  simp only [if_pos, parseDigits_natDec _ h]
  rw [if_pos (by simp; omega)]
  simp

/-- what the decoder does on a canonical integer -/
theorem decodeIntBody_canon (neg : Bool) (n : Nat) (rest : Bytes) :
    decodeIntBody neg (natDec n ++ (101 : UInt8) :: rest) =
      if n < 2 ^ 63 then .ok (if neg then -(n : Int) else (n : Int), rest) else .err .strconv := by
  obtain ⟨c, r, hc, hd⟩ := natDec_cons n
  by_cases h0 : c = 48
  · subst h0
    obtain ⟨rfl, rfl⟩ := natDec_head_zero n r hc
    rw [hc]
    simp [decodeIntBody, decodeIntTail, isDigit_e, parseDigits, digitsVal]
  · rw [hc, List.cons_append, decodeIntBody.eq_def]
    simp only [if_neg h0]
    rw [← List.cons_append, ← hc, decodeIntTail,
      takeWhile_digits _ _ _ (natDec_digits _) isDigit_e,
      dropWhile_digits _ _ _ (natDec_digits _) isDigit_e]
    simp only [if_pos, List.nil_append]
    by_cases hn : n < 2 ^ 63
    · rw [parseDigits_natDec _ hn, if_pos hn]
    · rw [parseDigits_natDec_big _ hn, if_neg hn]

theorem decodeInt_canon (i : Int) (rest : Bytes) :
    decodeInt (ascii "i" ++ decInt i ++ ascii "e" ++ rest) =
      if i.natAbs < 2 ^ 63 then .ok (i, rest) else .err .strconv := by
  have e : ascii "i" ++ decInt i ++ ascii "e" ++ rest = (105 : UInt8) :: (intDec i ++ (101 : UInt8) :: rest) := by
    rw [decInt_eq]; simp [ascii]
  rw [e, decodeInt.eq_def]
  simp only [if_pos]
  unfold intDec
  by_cases hi : i < 0
  · simp only [if_pos hi, List.cons_append]
    rw [decodeIntBody_canon]
    by_cases hn : i.natAbs < 2 ^ 63
    · rw [if_pos hn, if_pos hn]; simp; omega
    · rw [if_neg hn, if_neg hn]; simp
  · simp only [if_neg hi]
    obtain ⟨c, r, hc, hd⟩ := natDec_cons i.natAbs
    have hc45 := (isDigit_lit hd).2.2.2.2.1
    rw [hc, List.cons_append]
    simp only [if_neg hc45]
    rw [← List.cons_append, ← hc, decodeIntBody_canon]
    by_cases hn : i.natAbs < 2 ^ 63
    · rw [if_pos hn, if_pos hn]; simp; omega
    · rw [if_neg hn, if_neg hn]

/-- first byte of a canonical encoding -/
theorem canon_head {v : Value} {b : Bytes} (h : Canon v b) : ∃ c r, b = c :: r ∧ c ≠ 101 := by
  cases h with
  | str s hs =>
    obtain ⟨c, r, hc, hd⟩ := natDec_cons s.length
    exact ⟨c, r ++ ascii ":" ++ s, by rw [decNat_eq, hc]; simp, (isDigit_lit hd).2.2.2.1⟩
  | int i => exact ⟨105, _, by simp [ascii]; rfl, by decide⟩
  | list vs b h => exact ⟨108, _, by simp [ascii]; rfl, by decide⟩
  | dict es b h hs => exact ⟨100, _, by simp [ascii]; rfl, by decide⟩

theorem entry_head (k : Bytes) : ∃ c r, decNat k.length ++ ascii ":" ++ k = c :: r ∧ c ≠ 101 := by
  obtain ⟨c, r, hc, hd⟩ := natDec_cons k.length
  exact ⟨c, r ++ ascii ":" ++ k, by rw [decNat_eq, hc]; simp, (isDigit_lit hd).2.2.2.1⟩

theorem decNat_pos (n : Nat) : 0 < (decNat n).length := by
  rw [decNat_eq]; exact List.length_pos_iff.mpr (natDec_ne_nil n)

/-- a dispatch on a string -/
theorem decodeValue_str (f : Nat) (sp inp : Bytes) (n : Nat) (r : Bytes)
    (h : inp = decNat n ++ r) :
    decodeValue (f + 1) sp inp = (do
      let (s, r') ← decodeString sp inp
      .ok (.str s, r')) := by
  obtain ⟨c, r', hc, hd⟩ := natDec_cons n
  have hi : inp = c :: (r' ++ r) := by rw [h, decNat_eq, hc]; simp
  have hl := isDigit_lit hd
  subst hi
  rw [decodeValue]
  simp only [if_neg hl.1, if_neg hl.2.1, if_neg hl.2.2.1]

theorem mapSet_append (acc : Dict) (k : Bytes) (v : Value) (h : k ∉ acc.map Prod.fst) :
    mapSet acc k v = acc ++ [(k, v)] := by
  induction acc with
  | nil => rfl
  | cons e es ih =>
    obtain ⟨k', v'⟩ := e
    simp only [List.map_cons, List.mem_cons, not_or] at h
    rw [mapSet, if_neg (fun hk => h.1 hk.symm), ih h.2]; rfl

/-- outcome of decoding a canonical document followed by `rest`: the value if all integers are
representable for the decoder, else an error -/
def GoodOr {α : Type} (P : Prop) (r : Res (α × Bytes)) (a : α) (rest : Bytes) : Prop :=
  (P → r = .ok (a, rest)) ∧ (¬ P → r = .err .strconv)

/-- integers that the decoder can represent -/
def DecInt (i : Int) : Prop := i.natAbs < 2 ^ 63

theorem GoodOr.bind {α β : Type} {P Q R : Prop} {r : Res (α × Bytes)} {a : α} {rest : Bytes}
    {g : α × Bytes → Res (β × Bytes)} {b : β} {rest' : Bytes}
    (h1 : GoodOr P r a rest) (h2 : GoodOr Q (g (a, rest)) b rest') (hR : R ↔ P ∧ Q) :
    GoodOr R (r >>= g) b rest' := by
  constructor
  · intro hr
    obtain ⟨hp, hq⟩ := hR.mp hr
    rw [h1.1 hp]; exact h2.1 hq
  · intro hr
    by_cases hp : P
    · rw [h1.1 hp]; exact h2.2 (fun hq => hr (hR.mpr ⟨hp, hq⟩))
    · rw [h1.2 hp]; rfl

theorem GoodOr.map {α β : Type} {P R : Prop} {r : Res (α × Bytes)} {a : α} {rest : Bytes}
    (g : α → β) (h1 : GoodOr P r a rest) (hR : R ↔ P) :
    GoodOr R (r >>= fun x => .ok (g x.1, x.2)) (g a) rest :=
  GoodOr.bind (Q := True) h1 ⟨fun _ => rfl, fun h => absurd trivial h⟩ (by simp [hR])

theorem allInts_list {P : Int → Prop} {vs : List Value} : AllInts P (.list vs) ↔ ∀ v ∈ vs, AllInts P v :=
  ⟨fun h => by cases h; assumption, .list vs⟩

theorem allInts_dict {P : Int → Prop} {es : Dict} : AllInts P (.dict es) ↔ ∀ e ∈ es, AllInts P e.2 :=
  ⟨fun h => by cases h; assumption, .dict es⟩

theorem allInts_int {P : Int → Prop} {i : Int} : AllInts P (.int64 i) ↔ P i :=
  ⟨fun h => by cases h; assumption, .int64 i⟩

mutual
theorem decodeValue_canon {v : Value} {b : Bytes} (h : Canon v b) (f : Nat) (sp rest : Bytes)
    (hf : b.length < f) (hl : LenOk v) :
    GoodOr (AllInts DecInt v) (decodeValue f sp (b ++ rest)) v rest := by
  obtain ⟨f, rfl⟩ : ∃ g, f = g + 1 := ⟨f - 1, by omega⟩
  match h with
  | .str s hs =>
    have hlen : s.length < 2 ^ 63 := by cases hl; assumption
    have e := decodeString_canon sp s rest hlen
    rw [decodeValue_str f sp _ s.length (ascii ":" ++ s ++ rest) (by simp), e]
    exact ⟨fun _ => rfl, fun h => absurd (.str s) h⟩
  | .int i =>
    have e := decodeInt_canon i rest
    have hd : decodeValue (f + 1) sp (ascii "i" ++ decInt i ++ ascii "e" ++ rest) =
        (do let (i, r') ← decodeInt (ascii "i" ++ decInt i ++ ascii "e" ++ rest)
            .ok (.int64 i, r')) := by
      simp [ascii, decodeValue]
    rw [hd, e]
    refine GoodOr.map Value.int64 (P := DecInt i) ⟨fun h => if_pos h, fun h => if_neg h⟩ allInts_int
  | .list vs b hs =>
    have hl' : ∀ v ∈ vs, LenOk v := by cases hl; assumption
    have e : ascii "l" ++ b ++ ascii "e" ++ rest = (108 : UInt8) :: (b ++ (101 : UInt8) :: rest) := by simp [ascii]
    have hb : b.length + 1 < f := by simp [ascii] at hf; omega
    have ih := listLoop_canon hs f sp rest [] hb hl'
    have hd : decodeValue (f + 1) sp (108 :: (b ++ (101 : UInt8) :: rest)) =
        (do let (vs, r') ← listLoop f sp (b ++ (101 : UInt8) :: rest) []
            .ok (.list vs, r')) := by
      simp [decodeValue]
    rw [e, hd]
    exact GoodOr.map Value.list ih allInts_list
  | .dict es b hs hsort =>
    have hk' : ∀ e ∈ es, e.1.length < 2 ^ 63 := by cases hl; assumption
    have hl' : ∀ e ∈ es, LenOk e.2 := by cases hl; assumption
    have e : ascii "d" ++ b ++ ascii "e" ++ rest = (100 : UInt8) :: (b ++ (101 : UInt8) :: rest) := by simp [ascii]
    have hb : b.length + 1 < f := by simp [ascii] at hf; omega
    have ih := dictLoop_canon hs f sp rest [] hb hk' hl' (by
      rw [List.nil_append]
      exact hsort.imp (fun {a b} (h : a < b) (he : a = b) => List.lt_irrefl b (he ▸ h)))
    have hd : decodeValue (f + 1) sp (100 :: (b ++ (101 : UInt8) :: rest)) =
        (do let (vs, r') ← dictLoop f sp (b ++ (101 : UInt8) :: rest) []
            .ok (.dict vs, r')) := by
      simp [decodeValue]
    rw [e, hd]
    exact GoodOr.map Value.dict ih allInts_dict

theorem listLoop_canon {vs : List Value} {b : Bytes} (h : CanonSeq vs b) (f : Nat) (sp rest : Bytes)
    (acc : List Value) (hf : b.length + 1 < f) (hl : ∀ v ∈ vs, LenOk v) :
    GoodOr (∀ v ∈ vs, AllInts DecInt v) (listLoop f sp (b ++ (101 : UInt8) :: rest) acc) (acc ++ vs) rest := by
  obtain ⟨f, rfl⟩ : ∃ g, f = g + 1 := ⟨f - 1, by omega⟩
  match h with
  | .nil => simp [listLoop, GoodOr]
  | .cons v vs b bs hv hvs =>
    obtain ⟨c, r, hc, hne⟩ := canon_head hv
    have hlen : 0 < b.length := by rw [hc]; simp
    simp only [List.length_append] at hf
    have hd : listLoop (f + 1) sp (b ++ bs ++ (101 : UInt8) :: rest) acc =
        (do let (v, r1) ← decodeValue f sp (b ++ (bs ++ (101 : UInt8) :: rest))
            listLoop f sp r1 (acc ++ [v])) := by
      rw [List.append_assoc, hc, List.cons_append, listLoop]
      simp only [if_neg hne]
    have ih1 := decodeValue_canon hv f sp (bs ++ (101 : UInt8) :: rest) (by omega) (hl v (by simp))
    have ih2 := listLoop_canon hvs f sp rest (acc ++ [v]) (by omega) (fun w hw => hl w (by simp [hw]))
    rw [hd]
    rw [List.append_assoc] at ih2
    exact GoodOr.bind ih1 ih2 (by simp)

theorem dictLoop_canon {es : Dict} {b : Bytes} (h : CanonEntries es b) (f : Nat) (sp rest : Bytes)
    (acc : Dict) (hf : b.length + 1 < f) (hk : ∀ e ∈ es, e.1.length < 2 ^ 63) (hl : ∀ e ∈ es, LenOk e.2)
    (hnd : ((acc ++ es).map Prod.fst).Pairwise (· ≠ ·)) :
    GoodOr (∀ e ∈ es, AllInts DecInt e.2) (dictLoop f sp (b ++ (101 : UInt8) :: rest) acc) (acc ++ es) rest := by
  obtain ⟨f, rfl⟩ : ∃ g, f = g + 1 := ⟨f - 1, by omega⟩
  match h with
  | .nil => simp [dictLoop, GoodOr]
  | .cons k v es b bs hkne hv hes =>
    obtain ⟨c, r, hc, hne⟩ := entry_head k
    have hdl := decNat_pos k.length
    have e1 : decNat k.length ++ ascii ":" ++ k ++ b ++ bs ++ (101 : UInt8) :: rest =
      decNat k.length ++ ascii ":" ++ k ++ (b ++ (bs ++ (101 : UInt8) :: rest)) := by simp
    simp only [List.length_append] at hf
    have hd : dictLoop (f + 1) sp (decNat k.length ++ ascii ":" ++ k ++ (b ++ (bs ++ (101 : UInt8) :: rest))) acc =
        (do let (k, r1) ← decodeString sp (decNat k.length ++ ascii ":" ++ k ++ (b ++ (bs ++ (101 : UInt8) :: rest)))
            let (v, r2) ← decodeValue f sp r1
            dictLoop f sp r2 (mapSet acc k v)) := by
      rw [hc, List.cons_append, dictLoop]
      simp only [if_neg hne]
    have hks := decodeString_canon sp k (b ++ (bs ++ (101 : UInt8) :: rest)) (hk (k, v) (by simp))
    have ih1 := decodeValue_canon hv f sp (bs ++ (101 : UInt8) :: rest) (by omega) (hl (k, v) (by simp))
    have hms : mapSet acc k v = acc ++ [(k, v)] := by
      apply mapSet_append
      intro hmem
      rw [List.map_append, List.pairwise_append] at hnd
      exact hnd.2.2 k hmem k (by simp) rfl
    have ih2 := dictLoop_canon hes f sp rest (acc ++ [(k, v)]) (by omega)
      (fun w hw => hk w (by simp [hw])) (fun w hw => hl w (by simp [hw])) (by simpa using hnd)
    rw [e1, hd, hks]
    simp only [Res.ok_bind]
    rw [List.append_assoc] at ih2
    refine GoodOr.bind ih1 (by rw [hms]; exact ih2) (by simp)
end

end Verif.Bencode
