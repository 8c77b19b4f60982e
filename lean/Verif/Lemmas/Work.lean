import Verif.Model.Work
import Verif.Spec.Work
import Verif.Lemmas.BencodeDoc
import Verif.Lemmas.BencodeTotal
/-
The work of the decoder.
-/
set_option autoImplicit false

namespace Verif.Work
open Verif.Bencode Verif.Bencode.Spec Verif.Work.Spec Verif.Utils Verif.Size

theorem bind_fst {α β : Type} (x : W α) (f : α → W β) : (W.bind x f).1 = (x.1 >>= fun a => (f a).1) := by
  obtain ⟨r, n⟩ := x
  cases r <;> rfl

theorem numLoop_cons (stop : UInt8) (acc : Bytes) (c : UInt8) (r : Bytes) : numLoop stop acc (c :: r) =
    if isDigit c then ((numLoop stop (acc ++ [c]) r).1, 1 + (acc ++ [c]).length + (numLoop stop (acc ++ [c]) r).2)
    else if c = stop then (.ok (acc, r), 1)
    else (.err .decoder, 1) := rfl

theorem bind_ok {α β : Type} (a : α) (n : Nat) (f : α → W β) : W.bind (.ok a, n) f = ((f a).1, n + (f a).2) := rfl

/-! ### The results are those of the decoder -/

theorem numLoop_fst (stop : UInt8) (inp : Bytes) : ∀ acc, (numLoop stop acc inp).1 =
    match inp.dropWhile isDigit with
    | [] => .panic
    | c :: r => if c = stop then .ok (acc ++ inp.takeWhile isDigit, r) else .err .decoder := by
  induction inp with
  | nil => intro acc; rfl
  | cons c r ih =>
    intro acc
    rw [numLoop_cons]
    by_cases hd : isDigit c = true
    · rw [if_pos hd, List.dropWhile_cons_of_pos hd, List.takeWhile_cons_of_pos hd]
      simp only
      rw [ih]
      cases r.dropWhile isDigit with
      | nil => rfl
      | cons c' r' => simp
    · rw [if_neg hd, List.dropWhile_cons_of_neg hd, List.takeWhile_cons_of_neg hd]
      by_cases hc : c = stop
      · simp [hc]
      · simp [hc]

theorem stringW_fst (sp inp : Bytes) : (stringW sp inp).1 = decodeString sp inp := by
  unfold stringW decodeString
  rw [bind_fst, numLoop_fst 58]
  cases inp.dropWhile isDigit with
  | nil => rfl
  | cons c r =>
    simp only
    by_cases hc : c = 58
    · simp only [hc, if_pos, Res.ok_bind, List.nil_append]
      cases parseDigits (inp.takeWhile isDigit) with
      | none => rfl
      | some n => simp only; split <;> rfl
    · simp only [if_neg hc]; rfl

theorem intTailW_fst (neg : Bool) (pre inp : Bytes) : (intTailW neg pre inp).1 = decodeIntTail neg pre inp := by
  unfold intTailW decodeIntTail
  rw [bind_fst, numLoop_fst 101]
  cases inp.dropWhile isDigit with
  | nil => rfl
  | cons c r =>
    simp only
    by_cases hc : c = 101
    · simp only [hc, if_pos, Res.ok_bind]
      cases parseDigits (pre ++ inp.takeWhile isDigit) with
      | none => rfl
      | some n => rfl
    · simp only [if_neg hc]; rfl

theorem intBodyW_fst (neg : Bool) (inp : Bytes) : (intBodyW neg inp).1 = decodeIntBody neg inp := by
  cases inp with
  | nil => rfl
  | cons c r =>
    simp only [intBodyW, decodeIntBody]
    split
    · cases r with
      | nil => rfl
      | cons c' r' => simp only; split <;> first | exact intTailW_fst .. | rfl
    · exact intTailW_fst ..

theorem intW_fst (inp : Bytes) : (intW inp).1 = decodeInt inp := by
  cases inp with
  | nil => rfl
  | cons c r =>
    simp only [intW, decodeInt]
    split
    · cases r with
      | nil => rfl
      | cons s r' => simp only; split <;> exact intBodyW_fst ..
    · rfl

theorem all_fst (sp : Bytes) (f : Nat) : (∀ inp, (valueW f sp inp).1 = decodeValue f sp inp) ∧
    (∀ inp acc, (dictW f sp inp acc).1 = dictLoop f sp inp acc) ∧ (∀ inp acc, (listW f sp inp acc).1 = listLoop f sp inp acc) := by
  induction f with
  | zero => exact ⟨fun _ => by rw [valueW, decodeValue], fun _ _ => by rw [dictW, dictLoop], fun _ _ => by rw [listW, listLoop]⟩
  | succ f ih =>
    obtain ⟨ihv, ihd, ihl⟩ := ih
    refine ⟨fun inp => ?_, fun inp acc => ?_, fun inp acc => ?_⟩
    · cases inp with
      | nil => rw [valueW, decodeValue]
      | cons c r =>
        rw [valueW, decodeValue, bind_ok]
        simp only
        split
        · rw [bind_fst, ihd]
        · split
          · rw [bind_fst, ihl]
          · split
            · rw [bind_fst, intW_fst]
            · rw [bind_fst, stringW_fst]
    · cases inp with
      | nil => rw [dictW, dictLoop]
      | cons c r =>
        rw [dictW, dictLoop, bind_ok]
        simp only
        split
        · rfl
        · rw [bind_fst, stringW_fst]
          congr 1; funext x
          simp only [bind_fst, ihv]
          congr 1; funext y
          simp only [ihd, Res.ok_bind]
    · cases inp with
      | nil => rw [listW, listLoop]
      | cons c r =>
        rw [listW, listLoop, bind_ok]
        simp only
        split
        · rfl
        · rw [bind_fst, ihv]
          congr 1; funext x
          simp only [ihl]

theorem decodeW_fst (data sp : Bytes) : (DecodeW data sp).1 = Decode data sp := by
  unfold DecodeW Decode DecodeFuel
  rw [← (all_fst sp _).1]
  rcases valueW (2 * data.length + 1) sp data with ⟨r, n⟩
  cases r <;> rfl

theorem decodeW_snd (data sp : Bytes) : (DecodeW data sp).2 = (valueW (2 * data.length + 1) sp data).2 := by
  unfold DecodeW
  rcases valueW (2 * data.length + 1) sp data with ⟨r, n⟩
  cases r <;> rfl

/-! ### The work for a numeral -/

theorem numLoop_digits (stop : UInt8) (hs : isDigit stop = false) (ds : Bytes) (hd : ∀ d ∈ ds, isDigit d = true) (r : Bytes) : ∀ acc,
    numLoop stop acc (ds ++ stop :: r) = (.ok (acc ++ ds, r), numeral ds.length + ds.length * acc.length) := by
  induction ds with
  | nil => intro acc; simp [numLoop, hs, numeral, tri]
  | cons d ds ih =>
    intro acc
    rw [List.cons_append, numLoop_cons, if_pos (hd d (by simp)), ih (fun x hx => hd x (by simp [hx]))]
    simp only [List.append_assoc, List.singleton_append, List.length_append, List.length_cons, List.length_nil, Prod.mk.injEq, true_and]
    simp only [numeral, tri, Nat.mul_add, Nat.add_mul, Nat.mul_one, Nat.one_mul, Nat.zero_add]
    omega

theorem stringW_doc {ds s : Bytes} (hds : Digits ds) (hv : decVal ds = s.length) (sp rest : Bytes) :
    stringW sp (ds ++ ascii ":" ++ s ++ rest) = (.ok (s, rest), numeral ds.length + s.length) := by
  have e : ds ++ ascii ":" ++ s ++ rest = ds ++ (58 : UInt8) :: (s ++ rest) := by simp [ascii]
  rw [stringW, e, numLoop_digits 58 isDigit_colon ds (digits_isDigit hds), bind_ok]
  simp only [List.nil_append, (parseDigits_iff ds _ (digits_isDigit hds)).mpr ⟨hds, hv⟩, List.length_nil, Nat.mul_zero, Nat.add_zero]
  rw [if_pos (by simp; omega)]
  simp

theorem intTailW_doc (neg : Bool) {ds : Bytes} (hds : Digits ds) (rest : Bytes) :
    (intTailW neg [] (ds ++ (101 : UInt8) :: rest)).2 = numeral ds.length := by
  rw [intTailW, numLoop_digits 101 isDigit_e ds (digits_isDigit hds), bind_ok]
  simp only [List.nil_append, (parseDigits_iff ds _ (digits_isDigit hds)).mpr ⟨hds, rfl⟩, List.length_nil, Nat.mul_zero, Nat.add_zero]

theorem intBodyW_doc (neg : Bool) {ds : Bytes} (hds : Digits ds) (hz : ds.head? = some 48 → ds = [48]) (rest : Bytes) :
    (intBodyW neg (ds ++ (101 : UInt8) :: rest)).2 = 1 + numeral ds.length := by
  obtain ⟨c, r, rfl⟩ := List.exists_cons_of_ne_nil hds.1
  by_cases hc : c = 48
  · subst hc
    have := hz rfl
    cases this
    simp only [List.cons_append, List.nil_append, intBodyW, if_pos, intTailW]
    have := numLoop_digits 101 isDigit_e [] (by simp) rest [48]
    rw [List.nil_append] at this
    rw [this, bind_ok]
    have hp : parseDigits ([48] ++ []) = some 0 := by decide
    rw [hp]
    rfl
  · have := intTailW_doc neg hds rest
    rw [List.cons_append] at this ⊢
    simp only [intBodyW, if_neg hc, this]

theorem intW_doc {sign ds : Bytes} (hds : Digits ds) (hz : ds.head? = some 48 → ds = [48]) (hs : sign = [] ∨ sign = ascii "-") (rest : Bytes) :
    (intW (ascii "i" ++ sign ++ ds ++ ascii "e" ++ rest)).2 = 3 + numeral ds.length := by
  rcases hs with rfl | rfl
  · have e : ascii "i" ++ [] ++ ds ++ ascii "e" ++ rest = (105 : UInt8) :: (ds ++ (101 : UInt8) :: rest) := by simp [ascii]
    obtain ⟨c, r, hcr⟩ := List.exists_cons_of_ne_nil hds.1
    have hc : c ≠ 45 := by
      intro h; subst h
      have := hds.2.1 45 (by rw [hcr]; simp)
      exact absurd this.1 (by decide)
    have hb := intBodyW_doc false hds hz rest
    rw [hcr, List.cons_append] at hb
    rw [e, hcr, List.cons_append]
    simp only [intW, if_pos, if_neg hc, hb]
    omega
  · have e : ascii "i" ++ ascii "-" ++ ds ++ ascii "e" ++ rest = (105 : UInt8) :: 45 :: (ds ++ (101 : UInt8) :: rest) := by simp [ascii]
    rw [e]
    simp only [intW, if_pos, intBodyW_doc true hds hz rest]
    omega

theorem intW_ok {sign ds : Bytes} (hds : Digits ds) (hz : ds.head? = some 48 → ds = [48]) (hs : sign = [] ∨ sign = ascii "-") (rest : Bytes) :
    ∃ i, (intW (ascii "i" ++ sign ++ ds ++ ascii "e" ++ rest)).1 = .ok (i, rest) := by
  rcases hs with rfl | rfl
  · exact ⟨_, by rw [intW_fst]; exact decodeInt_doc ⟨ds, hds, hz, .inl ⟨by simp, rfl⟩⟩ rest⟩
  · exact ⟨_, by rw [intW_fst]; exact decodeInt_doc ⟨ds, hds, hz, .inr ⟨by simp [ascii], rfl⟩⟩ rest⟩

theorem digits_head {ds : Bytes} (h : Digits ds) : ∃ c r, ds = c :: r ∧ isDigit c = true := by
  obtain ⟨c, r, rfl⟩ := List.exists_cons_of_ne_nil h.1
  exact ⟨c, r, rfl, digits_isDigit h c (by simp)⟩

theorem costs_head {m : Nat} {b : Bytes} {n : Nat} (h : Costs m b n) : ∃ c r, b = c :: r ∧ c ≠ 101 := by
  cases h with
  | str ds s hds _ _ =>
    obtain ⟨c, r, rfl, hc⟩ := digits_head hds
    exact ⟨c, r ++ ascii ":" ++ s, by simp, by rintro rfl; cases hc⟩
  | int sign ds _ _ _ _ => exact ⟨105, sign ++ ds ++ ascii "e", by simp [ascii], by decide⟩
  | list b n _ => exact ⟨108, b ++ ascii "e", by simp [ascii], by decide⟩
  | dict b n _ => exact ⟨100, b ++ ascii "e", by simp [ascii], by decide⟩

/-! ### The work for a document -/

mutual
theorem value_costs {m : Nat} {b : Bytes} {n : Nat} (h : Costs m b n) (f : Nat) (sp rest : Bytes) (hf : b.length < f) :
    ∃ v, valueW f sp (b ++ rest) = (.ok (v, rest), n) := by
  obtain ⟨f, rfl⟩ : ∃ g, f = g + 1 := ⟨f - 1, by omega⟩
  match h with
  | .str ds s hds _ hv =>
    obtain ⟨c, r, rfl, hc⟩ := digits_head hds
    have h1 := stringW_doc hds hv sp rest
    have hn : c ≠ 100 ∧ c ≠ 108 ∧ c ≠ 105 := by
      refine ⟨?_, ?_, ?_⟩ <;> (rintro rfl; cases hc)
    simp only [List.cons_append] at h1 ⊢
    rw [valueW, bind_ok, if_neg hn.1, if_neg hn.2.1, if_neg hn.2.2, h1, bind_ok]
    exact ⟨.str s, by simp only [Nat.add_zero, Nat.add_assoc]⟩
  | .int sign ds hds _ hz hs =>
    obtain ⟨i, hi⟩ := intW_ok hds hz hs rest
    have hw := intW_doc hds hz hs rest
    have h1 : intW (ascii "i" ++ sign ++ ds ++ ascii "e" ++ rest) = (.ok (i, rest), 3 + numeral ds.length) := by rw [← hi, ← hw]
    have e : ascii "i" ++ sign ++ ds ++ ascii "e" ++ rest = (105 : UInt8) :: (sign ++ ds ++ ascii "e" ++ rest) := by simp [ascii]
    rw [e] at h1 ⊢
    rw [valueW, bind_ok, if_neg (by decide), if_neg (by decide), if_pos rfl, h1, bind_ok]
    exact ⟨.int64 i, by simp only [Prod.mk.injEq, true_and]; omega⟩
  | .list b n hs =>
    have hb : b.length + 1 < f := by simp [ascii] at hf; omega
    obtain ⟨vs, h1⟩ := seq_costs hs f sp rest [] hb
    have e : ascii "l" ++ b ++ ascii "e" ++ rest = (108 : UInt8) :: (b ++ (101 : UInt8) :: rest) := by simp [ascii]
    rw [e, valueW, bind_ok, if_neg (by decide), if_pos rfl, h1, bind_ok]
    exact ⟨.list vs, by simp only [Prod.mk.injEq, true_and]; omega⟩
  | .dict b n hs =>
    have hb : b.length + 1 < f := by simp [ascii] at hf; omega
    obtain ⟨vs, h1⟩ := entries_costs hs f sp rest [] hb
    have e : ascii "d" ++ b ++ ascii "e" ++ rest = (100 : UInt8) :: (b ++ (101 : UInt8) :: rest) := by simp [ascii]
    rw [e, valueW, bind_ok, if_pos rfl, h1, bind_ok]
    exact ⟨.dict vs, by simp only [Prod.mk.injEq, true_and]; omega⟩

theorem seq_costs {m : Nat} {b : Bytes} {n : Nat} (h : CostsSeq m b n) (f : Nat) (sp rest : Bytes) (acc : List Value) (hf : b.length + 1 < f) :
    ∃ vs, listW f sp (b ++ (101 : UInt8) :: rest) acc = (.ok (vs, rest), n + 1) := by
  obtain ⟨f, rfl⟩ : ∃ g, f = g + 1 := ⟨f - 1, by omega⟩
  match h with
  | .nil => exact ⟨acc, by rw [List.nil_append, listW, bind_ok, if_pos rfl]; rfl⟩
  | .cons b bs n k hb hbs =>
    obtain ⟨c, r, hc, hne⟩ := costs_head hb
    have hlen : 0 < b.length := by rw [hc]; simp
    simp only [List.length_append] at hf
    obtain ⟨v, h1⟩ := value_costs hb f sp (bs ++ (101 : UInt8) :: rest) (by omega)
    obtain ⟨vs, h2⟩ := seq_costs hbs f sp rest (acc ++ [v]) (by omega)
    rw [List.append_assoc]
    rw [hc, List.cons_append] at h1 ⊢
    rw [listW, bind_ok, if_neg hne, h1, bind_ok]
    simp only [h2]
    exact ⟨vs, by simp only [Prod.mk.injEq, true_and]; omega⟩

theorem entries_costs {m : Nat} {b : Bytes} {n : Nat} (h : CostsEntries m b n) (f : Nat) (sp rest : Bytes) (acc : Dict) (hf : b.length + 1 < f) :
    ∃ es, dictW f sp (b ++ (101 : UInt8) :: rest) acc = (.ok (es, rest), n + 1) := by
  obtain ⟨f, rfl⟩ : ∃ g, f = g + 1 := ⟨f - 1, by omega⟩
  match h with
  | .nil => exact ⟨acc, by rw [List.nil_append, dictW, bind_ok, if_pos rfl]; rfl⟩
  | .cons ds s b bs n k hds _ hv hb hbs =>
    obtain ⟨c, r, hc, hd⟩ := digits_head hds
    have hne : c ≠ 101 := by rintro rfl; cases hd
    have hlen : 0 < ds.length := by rw [hc]; simp
    simp only [List.length_append] at hf
    have h0 := stringW_doc hds hv sp (b ++ (bs ++ (101 : UInt8) :: rest))
    obtain ⟨v, h1⟩ := value_costs hb f sp (bs ++ (101 : UInt8) :: rest) (by omega)
    obtain ⟨vs, h2⟩ := entries_costs hbs f sp rest (mapSet acc s v) (by omega)
    have e : ds ++ ascii ":" ++ s ++ b ++ bs ++ (101 : UInt8) :: rest = ds ++ ascii ":" ++ s ++ (b ++ (bs ++ (101 : UInt8) :: rest)) := by simp
    rw [e]
    have e2 : ds ++ ascii ":" ++ s ++ (b ++ (bs ++ (101 : UInt8) :: rest)) = c :: (r ++ ascii ":" ++ s ++ (b ++ (bs ++ (101 : UInt8) :: rest))) := by
      rw [hc]; simp
    rw [e2] at h0 ⊢
    rw [dictW, bind_ok, if_neg hne, h0, bind_ok]
    simp only [h1, bind_ok, h2]
    exact ⟨vs, by simp only [Prod.mk.injEq, true_and]; omega⟩
end

theorem decode_costs {m : Nat} {b : Bytes} {n : Nat} (h : Costs m b n) (sp rest : Bytes) :
    (∃ v, (DecodeW (b ++ rest) sp).1 = .ok v) ∧ (DecodeW (b ++ rest) sp).2 = n := by
  obtain ⟨v, hv⟩ := value_costs h (2 * (b ++ rest).length + 1) sp rest (by simp; omega)
  rw [DecodeW, hv]
  exact ⟨⟨v, rfl⟩, rfl⟩

/-! ### Bounds -/

theorem tri_le (d : Nat) : tri d ≤ d * d := by
  induction d with
  | zero => simp [tri]
  | succ d ih => rw [tri, Nat.mul_add, Nat.add_mul]; omega

theorem tri_le_mul {d m : Nat} (h : d ≤ m) : tri d ≤ m * d :=
  Nat.le_trans (tri_le d) (Nat.mul_le_mul_right d h)

theorem two_tri (d : Nat) : 2 * tri d = d * d + d := by
  induction d with
  | zero => rfl
  | succ d ih => simp only [tri, Nat.mul_add, Nat.add_mul, Nat.mul_one, Nat.one_mul]; omega

mutual
theorem costs_le {m : Nat} {b : Bytes} {n : Nat} (h : Costs m b n) : n + 1 ≤ (m + 4) * b.length := by
  match h with
  | .str ds s _ hm _ =>
    have := tri_le_mul hm
    have h0 : 0 ≤ m * s.length := Nat.zero_le _
    simp only [numeral, List.length_append, Nat.mul_add, Nat.add_mul]
    simp [ascii]; omega
  | .int sign ds _ hm _ _ =>
    have := tri_le_mul hm
    simp only [numeral, List.length_append, Nat.mul_add, Nat.add_mul]
    simp [ascii]; omega
  | .list b n hs =>
    have := seq_le hs
    simp only [List.length_append, Nat.mul_add, Nat.add_mul] at this ⊢
    simp [ascii]; omega
  | .dict b n hs =>
    have := entries_le hs
    simp only [List.length_append, Nat.mul_add, Nat.add_mul] at this ⊢
    simp [ascii]; omega

theorem seq_le {m : Nat} {b : Bytes} {n : Nat} (h : CostsSeq m b n) : n ≤ (m + 4) * b.length := by
  match h with
  | .nil => simp
  | .cons b bs n k hb hbs =>
    have h1 := costs_le hb
    have h2 := seq_le hbs
    obtain ⟨c, r, hc, -⟩ := costs_head hb
    have hlen : 0 < b.length := by rw [hc]; simp
    simp only [List.length_append, Nat.mul_add, Nat.add_mul] at h1 h2 ⊢
    omega

theorem entries_le {m : Nat} {b : Bytes} {n : Nat} (h : CostsEntries m b n) : n ≤ (m + 4) * b.length := by
  match h with
  | .nil => simp
  | .cons ds s b bs n k _ hm _ hb hbs =>
    have h0 := tri_le_mul hm
    have h1 := costs_le hb
    have h2 := entries_le hbs
    simp only [numeral, List.length_append, Nat.mul_add, Nat.add_mul] at h1 h2 ⊢
    simp [ascii]; omega
end

/-! ### Canonical documents -/

theorem natDec_short (k : Nat) : ∀ n, 0 < k → n < 10 ^ k → (natDec n).length ≤ k := by
  induction k with
  | zero => intro n h; exact absurd h (by decide)
  | succ k ih =>
    intro n _ h
    rw [natDec]
    split
    · simp
    · rename_i h10
      have hk : 0 < k := by
        refine Nat.pos_of_ne_zero fun h0 => ?_
        subst h0; simp at h; omega
      have := ih (n / 10) hk (by rw [Nat.pow_succ] at h; omega)
      simp; omega

theorem natDec_digits' {n : Nat} (h : n < 2 ^ 63) : Digits (natDec n) :=
  ⟨natDec_ne_nil n, fun d hd => (isDigit_iff d).mp (natDec_digits n d hd), by rw [← digitsVal_eq, digitsVal_natDec]; exact h⟩

theorem natDec_19 {n : Nat} (h : n < 2 ^ 63) : (natDec n).length ≤ 19 := natDec_short 19 n (by decide) (by omega)

theorem natDec_zero {n : Nat} (h : (natDec n).head? = some 48) : natDec n = [48] := by
  obtain ⟨c, r, hc, -⟩ := natDec_cons n
  rw [hc] at h ⊢
  simp only [List.head?_cons, Option.some.injEq] at h
  subst h
  rw [(natDec_head_zero n r hc).2]

mutual
theorem canon_costs {v : Value} {b : Bytes} (h : Canon v b) (hl : LenOk v) (hi : AllInts (fun i => -2 ^ 63 < i ∧ i < 2 ^ 63) v) : ∃ n, Costs 19 b n := by
  match h with
  | .str s hs =>
    have hlen : s.length < 2 ^ 63 := by cases hl; assumption
    rw [decNat_eq]
    exact ⟨_, .str _ s (natDec_digits' hlen) (natDec_19 hlen) (by rw [← digitsVal_eq, digitsVal_natDec])⟩
  | .int i =>
    have hi : -2 ^ 63 < i ∧ i < 2 ^ 63 := by cases hi; assumption
    have hn : i.natAbs < 2 ^ 63 := by omega
    rw [decInt_eq, intDec]
    split
    · have e : ascii "i" ++ 45 :: natDec i.natAbs ++ ascii "e" = ascii "i" ++ ascii "-" ++ natDec i.natAbs ++ ascii "e" := by simp [ascii]
      rw [e]
      exact ⟨_, .int _ _ (natDec_digits' hn) (natDec_19 hn) natDec_zero (.inr rfl)⟩
    · have e : ascii "i" ++ natDec i.natAbs ++ ascii "e" = ascii "i" ++ [] ++ natDec i.natAbs ++ ascii "e" := by simp
      rw [e]
      exact ⟨_, .int _ _ (natDec_digits' hn) (natDec_19 hn) natDec_zero (.inl rfl)⟩
  | .list vs b hs =>
    obtain ⟨n, hn⟩ := canonSeq_costs hs (by cases hl; assumption) (by cases hi; assumption)
    exact ⟨_, .list b n hn⟩
  | .dict es b hs _ =>
    obtain ⟨n, hn⟩ := canonEntries_costs hs (by cases hl; assumption) (by cases hl; assumption) (by cases hi; assumption)
    exact ⟨_, .dict b n hn⟩

theorem canonSeq_costs {vs : List Value} {b : Bytes} (h : CanonSeq vs b) (hl : ∀ v ∈ vs, LenOk v)
    (hi : ∀ v ∈ vs, AllInts (fun i => -2 ^ 63 < i ∧ i < 2 ^ 63) v) : ∃ n, CostsSeq 19 b n := by
  match h with
  | .nil => exact ⟨_, .nil⟩
  | .cons v vs b bs hv hvs =>
    obtain ⟨n, hn⟩ := canon_costs hv (hl v (by simp)) (hi v (by simp))
    obtain ⟨k, hk⟩ := canonSeq_costs hvs (fun w hw => hl w (by simp [hw])) (fun w hw => hi w (by simp [hw]))
    exact ⟨_, .cons b bs n k hn hk⟩

theorem canonEntries_costs {es : Dict} {b : Bytes} (h : CanonEntries es b) (hk : ∀ e ∈ es, e.1.length < 2 ^ 63) (hl : ∀ e ∈ es, LenOk e.2)
    (hi : ∀ e ∈ es, AllInts (fun i => -2 ^ 63 < i ∧ i < 2 ^ 63) e.2) : ∃ n, CostsEntries 19 b n := by
  match h with
  | .nil => exact ⟨_, .nil⟩
  | .cons k v es b bs _ hv hes =>
    obtain ⟨n, hn⟩ := canon_costs hv (hl (k, v) (by simp)) (hi (k, v) (by simp))
    obtain ⟨j, hj⟩ := canonEntries_costs hes (fun w hw => hk w (by simp [hw])) (fun w hw => hl w (by simp [hw])) (fun w hw => hi w (by simp [hw]))
    have hlen := hk (k, v) (by simp)
    rw [decNat_eq]
    exact ⟨_, .cons _ k b bs n j (natDec_digits' hlen) (natDec_19 hlen) (by rw [← digitsVal_eq, digitsVal_natDec]) hn hj⟩
end

/-! ### Every document has its work -/

theorem seq_of_list {m : Nat} (bs : List Bytes) (h : ∀ b ∈ bs, ∃ n, Costs m b n) : ∃ n, CostsSeq m bs.flatten n := by
  induction bs with
  | nil => exact ⟨_, .nil⟩
  | cons b bs ih =>
    obtain ⟨n, hn⟩ := h b (by simp)
    obtain ⟨k, hk⟩ := ih fun x hx => h x (by simp [hx])
    rw [List.flatten_cons]
    exact ⟨_, .cons b _ n k hn hk⟩

theorem entries_of_list {m : Nat} (es : List Item) (hk : ∀ e ∈ es, StrDoc e.key e.keyDoc) (hm : ∀ e ∈ es, e.keyDoc.length ≤ m)
    (h : ∀ e ∈ es, ∃ n, Costs m e.valDoc n) : ∃ n, CostsEntries m (es.map fun e => e.keyDoc ++ e.valDoc).flatten n := by
  induction es with
  | nil => exact ⟨_, .nil⟩
  | cons e es ih =>
    obtain ⟨n, hn⟩ := h e (by simp)
    obtain ⟨k, hk'⟩ := ih (fun x hx => hk x (by simp [hx])) (fun x hx => hm x (by simp [hx])) fun x hx => h x (by simp [hx])
    obtain ⟨ds, hds, hv, he⟩ := hk e (by simp)
    have hl := hm e (by simp)
    rw [he] at hl
    have hl : ds.length ≤ m := by simp at hl; omega
    rw [List.map_cons, List.flatten_cons, he]
    exact ⟨_, .cons ds e.key e.valDoc _ n k hds hl hv hn hk'⟩

theorem flatten_le {bs : List Bytes} {b : Bytes} (h : b ∈ bs) : b.length ≤ bs.flatten.length := by
  induction bs with
  | nil => cases h
  | cons a bs ih =>
    rw [List.flatten_cons, List.length_append]
    rcases List.mem_cons.mp h with rfl | h
    · omega
    · have := ih h; omega

theorem parses_costs {v : Value} {b : Bytes} (h : Parses v b) : ∀ m, b.length ≤ m → ∃ n, Costs m b n := by
  induction h with
  | str s b h =>
    intro m hm
    obtain ⟨ds, hds, hv, rfl⟩ := h
    exact ⟨_, .str ds s hds (by simp at hm; omega) hv⟩
  | int i b h =>
    intro m hm
    obtain ⟨ds, hds, hz, h⟩ := h
    rcases h with ⟨rfl, -⟩ | ⟨rfl, -⟩
    · have := Costs.int (m := m) [] ds hds (by simp at hm; omega) hz (.inl rfl)
      exact ⟨_, by simpa using this⟩
    · have := Costs.int (m := m) (ascii "-") ds hds (by simp at hm; omega) hz (.inr rfl)
      exact ⟨_, by simpa [ascii] using this⟩
  | list vs _ ih =>
    intro m hm
    simp only [List.length_append] at hm
    obtain ⟨n, hn⟩ := seq_of_list (m := m) (vs.map Prod.snd) (fun b hb => by
      obtain ⟨p, hp, rfl⟩ := List.mem_map.mp hb
      have := flatten_le hb
      exact ih p hp m (by omega))
    exact ⟨_, .list _ n hn⟩
  | dict es d hk _ _ ih =>
    intro m hm
    simp only [List.length_append] at hm
    have hl : ∀ e ∈ es, e.keyDoc.length ≤ m ∧ e.valDoc.length ≤ m := by
      intro e he
      have := flatten_le (List.mem_map.mpr ⟨e, he, rfl⟩ : e.keyDoc ++ e.valDoc ∈ es.map fun e => e.keyDoc ++ e.valDoc)
      simp only [List.length_append] at this
      constructor <;> omega
    obtain ⟨n, hn⟩ := entries_of_list (m := m) es hk (fun e he => (hl e he).1) fun e he => ih e he m (hl e he).2
    exact ⟨_, .dict _ n hn⟩

theorem accepted_costs {data : Bytes} {v : Value} (h : Decode data [] = .ok v) : ∃ b rest n, data = b ++ rest ∧ Costs b.length b n := by
  rw [Decode, DecodeFuel] at h
  cases hd : decodeValue (2 * data.length + 1) [] data with
  | ok a =>
    obtain ⟨w, r⟩ := a
    obtain ⟨b, hb, hp⟩ := (decode_parses _).1 _ _ _ hd
    obtain ⟨n, hn⟩ := parses_costs hp b.length (Nat.le_refl _)
    exact ⟨b, r, n, hb, hn⟩
  | err e => rw [hd] at h; cases h
  | panic => rw [hd] at h; cases h
  | timeout => rw [hd] at h; cases h

/-! ### The work for any bytes at all -/

theorem numLoop_le (M : Nat) (stop : UInt8) (inp : Bytes) : ∀ acc, acc.length + inp.length ≤ M →
    (∀ ds r, (numLoop stop acc inp).1 = .ok (ds, r) →
      r.length < inp.length ∧ (numLoop stop acc inp).2 + M + (M + 1) * r.length ≤ (M + 1) * inp.length) ∧
    (numLoop stop acc inp).2 ≤ (M + 1) * inp.length := by
  induction inp with
  | nil => intro acc _; exact ⟨fun _ _ h => (by cases h), by simp [numLoop]⟩
  | cons c r ih =>
    intro acc hM
    simp only [List.length_cons] at hM
    rw [numLoop_cons]
    split
    · obtain ⟨h1, h2⟩ := ih (acc ++ [c]) (by simp; omega)
      simp only [List.length_append, List.length_cons, List.length_nil, Nat.mul_add, Nat.mul_one] at *
      refine ⟨fun ds r' h => ?_, by omega⟩
      have := h1 ds r' h
      omega
    · split
      · refine ⟨fun ds r' h => ?_, by simp only [List.length_cons, Nat.mul_add]; omega⟩
        cases h
        simp [Nat.mul_add]; omega
      · exact ⟨fun ds r' h => (by cases h), by simp only [List.length_cons, Nat.mul_add]; omega⟩

theorem stringW_le (M : Nat) (sp inp : Bytes) (hM : inp.length ≤ M) :
    (∀ s r, (stringW sp inp).1 = .ok (s, r) → r.length < inp.length ∧
      (stringW sp inp).2 + s.length + 3 + (M + 6) * r.length ≤ (M + 6) * inp.length + (if r = [] then 2 * sp.length else 0)) ∧
    (∀ (_ : ∀ s r, (stringW sp inp).1 ≠ .ok (s, r)), (stringW sp inp).2 ≤ (M + 1) * inp.length) := by
  obtain ⟨h1, h2⟩ := numLoop_le M 58 inp [] (by simpa using hM)
  rw [stringW]
  rcases hx : numLoop 58 [] inp with ⟨res, n⟩
  rw [hx] at h1 h2
  cases res with
  | ok a =>
    obtain ⟨ds, r⟩ := a
    obtain ⟨h3, h4⟩ := h1 ds r rfl
    rw [bind_ok]
    simp only at h2 h4 ⊢
    split
    · exact ⟨fun _ _ h => (by cases h), fun _ => by simpa using h2⟩
    · rename_i k _
      split
      · rename_i hk
        refine ⟨fun s r' h => ?_, fun h => absurd rfl (h _ _)⟩
        cases h
        have e : ((r ++ sp).take k).length = k := by simp; omega
        simp only [e, List.length_drop]
        by_cases hkr : k < r.length
        · have hne : r.drop k ≠ [] := by intro h; have := congrArg List.length h; simp at this; omega
          rw [if_neg hne]
          obtain ⟨j, hj⟩ : ∃ j, r.length = k + j := ⟨r.length - k, by omega⟩
          rw [hj, Nat.add_sub_cancel_left]
          rw [hj] at h4 h3
          obtain ⟨l, hl⟩ : ∃ l, inp.length = k + j + 1 + l := ⟨inp.length - (k + j + 1), by omega⟩
          rw [hl] at h4 ⊢
          have h0 : 0 ≤ M * k := Nat.zero_le _
          simp only [Nat.mul_add, Nat.add_mul] at h4 ⊢
          omega
        · have hne : r.drop k = [] := by apply List.eq_nil_of_length_eq_zero; simp; omega
          rw [if_pos hne, show r.length - k = 0 by omega]
          obtain ⟨l, hl⟩ : ∃ l, inp.length = r.length + 1 + l := ⟨inp.length - (r.length + 1), by omega⟩
          rw [hl] at h4 ⊢
          have h0 : 0 ≤ M * r.length := Nat.zero_le _
          simp only [Nat.mul_add, Nat.add_mul] at h4 ⊢
          omega
      · exact ⟨fun _ _ h => (by cases h), fun _ => by simpa using h2⟩
  | err e => exact ⟨fun _ _ h => (by cases h), fun _ => h2⟩
  | panic => exact ⟨fun _ _ h => (by cases h), fun _ => h2⟩
  | timeout => exact ⟨fun _ _ h => (by cases h), fun _ => h2⟩

theorem intTailW_le (M : Nat) (neg : Bool) (pre inp : Bytes) (hM : pre.length + inp.length ≤ M) :
    (∀ i r, (intTailW neg pre inp).1 = .ok (i, r) → r.length < inp.length ∧ (intTailW neg pre inp).2 + M + (M + 1) * r.length ≤ (M + 1) * inp.length) ∧
    (intTailW neg pre inp).2 ≤ (M + 1) * inp.length := by
  obtain ⟨h1, h2⟩ := numLoop_le M 101 inp pre hM
  rw [intTailW]
  rcases hx : numLoop 101 pre inp with ⟨res, n⟩
  rw [hx] at h1 h2
  cases res with
  | ok a =>
    obtain ⟨ds, r⟩ := a
    have h3 := h1 ds r rfl
    rw [bind_ok]
    simp only at h2 h3 ⊢
    split
    · exact ⟨fun _ _ h => (by cases h), by simpa using h2⟩
    · exact ⟨fun _ _ h => (by cases h; simpa using h3), by simpa using h2⟩
  | err e => exact ⟨fun _ _ h => (by cases h), h2⟩
  | panic => exact ⟨fun _ _ h => (by cases h), h2⟩
  | timeout => exact ⟨fun _ _ h => (by cases h), h2⟩

theorem intBodyW_le (M : Nat) (neg : Bool) (inp : Bytes) (hM : inp.length ≤ M) :
    (∀ i r, (intBodyW neg inp).1 = .ok (i, r) → r.length < inp.length ∧ (intBodyW neg inp).2 + M + (M + 1) * r.length ≤ (M + 1) * inp.length + 3) ∧
    (intBodyW neg inp).2 ≤ (M + 1) * inp.length + 3 := by
  cases inp with
  | nil => exact ⟨fun _ _ h => (by cases h), by simp [intBodyW]⟩
  | cons c r =>
    simp only [intBodyW]
    split
    · cases r with
      | nil => exact ⟨fun _ _ h => (by cases h), by simp⟩
      | cons c' r' =>
        simp only
        split
        · obtain ⟨h1, h2⟩ := intTailW_le M neg [48] (c' :: r') (by simpa [Nat.add_comm] using hM)
          simp only [List.length_cons, Nat.mul_add, Nat.mul_one] at *
          refine ⟨fun i t h => ?_, by omega⟩
          have := h1 i t h
          omega
        · exact ⟨fun _ _ h => (by cases h), by simp⟩
    · obtain ⟨h1, h2⟩ := intTailW_le M neg [] (c :: r) (by simpa using hM)
      refine ⟨fun i t h => ?_, by simp only; omega⟩
      have := h1 i t h
      simp only; omega

theorem intW_le (M : Nat) (inp : Bytes) (hM : inp.length ≤ M) :
    (∀ i r, (intW inp).1 = .ok (i, r) → r.length < inp.length ∧ (intW inp).2 + 2 + (M + 6) * r.length ≤ (M + 6) * inp.length) ∧
    (inp ≠ [] → (intW inp).2 + 2 ≤ (M + 6) * inp.length) := by
  cases inp with
  | nil => exact ⟨fun _ _ h => (by cases h), fun h => absurd rfl h⟩
  | cons c r =>
    simp only [intW]
    split
    · cases r with
      | nil => exact ⟨fun _ _ h => (by cases h), fun _ => by simp⟩
      | cons s r' =>
        simp only
        split
        · obtain ⟨h1, h2⟩ := intBodyW_le M true r' (by simp at hM; omega)
          simp only [List.length_cons, Nat.mul_add, Nat.add_mul, Nat.mul_one, Nat.one_mul] at *
          refine ⟨fun i t h => ?_, fun _ => by omega⟩
          have := h1 i t h
          omega
        · obtain ⟨h1, h2⟩ := intBodyW_le M false (s :: r') (by simp at hM ⊢; omega)
          simp only [List.length_cons, Nat.mul_add, Nat.add_mul, Nat.mul_one, Nat.one_mul] at *
          refine ⟨fun i t h => ?_, fun _ => by omega⟩
          have := h1 i t h
          omega
    · exact ⟨fun _ _ h => (by cases h), fun _ => by simp [Nat.mul_add]; omega⟩

/-- the part of the bound for the bytes behind the data, when the data is used up -/
def slack (sp r : Bytes) : Nat := if r = [] then 2 * sp.length else 0

theorem slack_le (sp r : Bytes) : slack sp r ≤ 2 * sp.length := by
  unfold slack; split <;> omega

theorem bind_not_ok {α β : Type} {x : W α} (f : α → W β) (h : ∀ a, x.1 ≠ .ok a) : (W.bind x f).2 = x.2 ∧ ∀ b, (W.bind x f).1 ≠ .ok b := by
  obtain ⟨r, n⟩ := x
  cases r with
  | ok a => exact absurd rfl (h a)
  | err e => exact ⟨rfl, fun _ h => by cases h⟩
  | panic => exact ⟨rfl, fun _ h => by cases h⟩
  | timeout => exact ⟨rfl, fun _ h => by cases h⟩

theorem ok_or {α : Type} (x : W α) : (∃ a, x = (.ok a, x.2)) ∨ ∀ a, x.1 ≠ .ok a := by
  obtain ⟨r, n⟩ := x
  cases r with
  | ok a => exact .inl ⟨a, rfl⟩
  | err e => exact .inr fun _ h => by cases h
  | panic => exact .inr fun _ h => by cases h
  | timeout => exact .inr fun _ h => by cases h

theorem all_le (M : Nat) (sp : Bytes) (f : Nat) :
    (∀ inp, inp.length ≤ M →
      (∀ v r, (valueW f sp inp).1 = .ok (v, r) → r.length < inp.length ∧ (valueW f sp inp).2 + 1 + (M + 6) * r.length ≤ (M + 6) * inp.length + slack sp r) ∧
      ((∀ a, (valueW f sp inp).1 ≠ .ok a) → (valueW f sp inp).2 + (if inp = [] then 0 else 1) ≤ (M + 6) * inp.length + 2 * sp.length)) ∧
    (∀ inp acc, inp.length ≤ M →
      (∀ v r, (dictW f sp inp acc).1 = .ok (v, r) → r.length < inp.length ∧ (dictW f sp inp acc).2 + (M + 6) * r.length ≤ (M + 6) * inp.length + slack sp r) ∧
      ((∀ a, (dictW f sp inp acc).1 ≠ .ok a) → (dictW f sp inp acc).2 ≤ (M + 6) * inp.length + (if inp = [] then 0 else 2 * sp.length))) ∧
    (∀ inp acc, inp.length ≤ M →
      (∀ v r, (listW f sp inp acc).1 = .ok (v, r) → r.length < inp.length ∧ (listW f sp inp acc).2 + (M + 6) * r.length ≤ (M + 6) * inp.length + slack sp r) ∧
      ((∀ a, (listW f sp inp acc).1 ≠ .ok a) → (listW f sp inp acc).2 ≤ (M + 6) * inp.length + (if inp = [] then 0 else 2 * sp.length))) := by
  induction f with
  | zero =>
    refine ⟨fun inp _ => ⟨fun _ _ h => (by simp [valueW] at h), fun _ => ?_⟩, fun inp acc _ => ⟨fun _ _ h => (by simp [dictW] at h), fun _ => by simp [dictW]⟩,
      fun inp acc _ => ⟨fun _ _ h => (by simp [listW] at h), fun _ => by simp [listW]⟩⟩
    cases inp <;> simp [valueW, Nat.mul_add]; omega
  | succ f ih =>
    obtain ⟨ihv, ihd, ihl⟩ := ih
    refine ⟨fun inp hM => ?_, fun inp acc hM => ?_, fun inp acc hM => ?_⟩
    · cases inp with
      | nil => exact ⟨fun _ _ h => (by simp [valueW] at h), fun _ => by simp [valueW]⟩
      | cons c r =>
        rw [valueW, bind_ok]
        have hr : r.length ≤ M := by simp at hM; omega
        simp only [List.cons_ne_nil, if_false]
        split
        · obtain ⟨h1, h2⟩ := ihd r [] hr
          rcases ok_or (dictW f sp r []) with ⟨⟨es, r'⟩, he⟩ | hn
          · have := h1 es r' (by rw [he])
            rw [he, bind_ok]
            refine ⟨fun v t h => ?_, fun h => absurd rfl (h _)⟩
            cases h
            simp only [List.length_cons, Nat.mul_add, Nat.add_mul] at *
            omega
          · have hb := bind_not_ok (fun (x : Dict × Bytes) => ((.ok (.dict x.1, x.2), 0) : W (Value × Bytes))) hn
            refine ⟨fun v t h => absurd h (hb.2 _), fun _ => ?_⟩
            rw [hb.1]
            have := h2 hn
            have : (dictW f sp r []).2 ≤ (M + 6) * r.length + 2 * sp.length := by split at this <;> omega
            simp only [List.length_cons, Nat.mul_add, Nat.add_mul] at *
            omega
        · split
          · obtain ⟨h1, h2⟩ := ihl r [] hr
            rcases ok_or (listW f sp r []) with ⟨⟨es, r'⟩, he⟩ | hn
            · have := h1 es r' (by rw [he])
              rw [he, bind_ok]
              refine ⟨fun v t h => ?_, fun h => absurd rfl (h _)⟩
              cases h
              simp only [List.length_cons, Nat.mul_add, Nat.add_mul] at *
              omega
            · have hb := bind_not_ok (fun (x : List Value × Bytes) => ((.ok (.list x.1, x.2), 0) : W (Value × Bytes))) hn
              refine ⟨fun v t h => absurd h (hb.2 _), fun _ => ?_⟩
              rw [hb.1]
              have := h2 hn
              have : (listW f sp r []).2 ≤ (M + 6) * r.length + 2 * sp.length := by split at this <;> omega
              simp only [List.length_cons, Nat.mul_add, Nat.add_mul] at *
              omega
          · split
            · obtain ⟨h1, h2⟩ := intW_le M (c :: r) hM
              rcases ok_or (intW (c :: r)) with ⟨⟨i, r'⟩, he⟩ | hn
              · have := h1 i r' (by rw [he])
                rw [he, bind_ok]
                refine ⟨fun v t h => ?_, fun h => absurd rfl (h _)⟩
                cases h
                simp only at *
                omega
              · have hb := bind_not_ok (fun (x : Int × Bytes) => ((.ok (.int64 x.1, x.2), 0) : W (Value × Bytes))) hn
                refine ⟨fun v t h => absurd h (hb.2 _), fun _ => ?_⟩
                rw [hb.1]
                have := h2 (by simp)
                omega
            · obtain ⟨h1, h2⟩ := stringW_le M sp (c :: r) hM
              rcases ok_or (stringW sp (c :: r)) with ⟨⟨i, r'⟩, he⟩ | hn
              · have := h1 i r' (by rw [he])
                rw [he, bind_ok]
                refine ⟨fun v t h => ?_, fun h => absurd rfl (h _)⟩
                cases h
                simp only [slack] at *
                rw [he] at this
                simp only at this
                omega
              · have hb := bind_not_ok (fun (x : Bytes × Bytes) => ((.ok (.str x.1, x.2), 0) : W (Value × Bytes))) hn
                refine ⟨fun v t h => absurd h (hb.2 _), fun _ => ?_⟩
                rw [hb.1]
                have := h2 fun s r => hn (s, r)
                simp only [List.length_cons, Nat.mul_add, Nat.add_mul] at *
                omega
    · cases inp with
      | nil => exact ⟨fun _ _ h => (by simp [dictW] at h), fun _ => by simp [dictW]⟩
      | cons c r =>
        rw [dictW, bind_ok]
        simp only [List.cons_ne_nil, if_false]
        split
        · refine ⟨fun v t h => ?_, fun h => absurd rfl (h _)⟩
          cases h
          simp only [List.length_cons, Nat.mul_add, Nat.add_mul]
          omega
        · obtain ⟨h1, h2⟩ := stringW_le M sp (c :: r) hM
          rcases ok_or (stringW sp (c :: r)) with ⟨⟨k, r1⟩, he⟩ | hn
          · obtain ⟨h3, h4⟩ := h1 k r1 (by rw [he])
            rw [he, bind_ok]
            simp only
            obtain ⟨h5, h6⟩ := ihv r1 (by omega)
            rcases ok_or (valueW f sp r1) with ⟨⟨v, r2⟩, hv⟩ | hn
            · obtain ⟨h7, h8⟩ := h5 v r2 (by rw [hv])
              have hne : r1 ≠ [] := by rintro rfl; simp at h7
              rw [if_neg hne] at h4
              rw [hv, bind_ok]
              simp only [bind_ok]
              obtain ⟨h9, h10⟩ := ihd r2 (mapSet acc k v) (by omega)
              rcases ok_or (dictW f sp r2 (mapSet acc k v)) with ⟨⟨es, r3⟩, hd⟩ | hn
              · obtain ⟨h11, h12⟩ := h9 es r3 (by rw [hd])
                have hne : r2 ≠ [] := by rintro rfl; simp at h11
                rw [slack, if_neg hne] at h8
                rw [hd]
                refine ⟨fun v t h => ?_, fun h => absurd rfl (h _)⟩
                cases h
                rw [hd] at h12
                simp only at *
                omega
              · refine ⟨fun v t h => absurd h (hn _), fun _ => ?_⟩
                have h10 := h10 hn
                have hs : slack sp r2 = if r2 = [] then 2 * sp.length else 0 := rfl
                by_cases h0 : r2 = []
                · rw [if_pos h0] at h10 hs
                  omega
                · rw [if_neg h0] at h10 hs
                  omega
            · have hb := bind_not_ok (fun (x : Value × Bytes) =>
                W.bind ((.ok (), k.length) : W Unit) fun _ => dictW f sp x.2 (mapSet acc k x.1)) hn
              refine ⟨fun v t h => absurd h (hb.2 _), fun _ => ?_⟩
              rw [hb.1]
              have h6 := h6 hn
              by_cases h0 : r1 = []
              · subst h0
                have hz : (valueW f sp []).2 = 0 := by cases f <;> simp [valueW]
                rw [hz]
                rw [if_pos rfl] at h4
                simp only [List.length_nil, Nat.mul_zero] at h4
                omega
              · rw [if_neg h0] at h4 h6
                omega
          · have hb := bind_not_ok (fun (x : Bytes × Bytes) => W.bind (valueW f sp x.2) fun y =>
                W.bind ((.ok (), x.1.length) : W Unit) fun _ => dictW f sp y.2 (mapSet acc x.1 y.1)) hn
            refine ⟨fun v t h => absurd h (hb.2 _), fun _ => ?_⟩
            rw [hb.1]
            have := h2 fun s r => hn (s, r)
            simp only [List.length_cons, Nat.mul_add, Nat.add_mul] at *
            omega
    · cases inp with
      | nil => exact ⟨fun _ _ h => (by simp [listW] at h), fun _ => by simp [listW]⟩
      | cons c r =>
        rw [listW, bind_ok]
        simp only [List.cons_ne_nil, if_false]
        split
        · refine ⟨fun v t h => ?_, fun h => absurd rfl (h _)⟩
          cases h
          simp only [List.length_cons, Nat.mul_add, Nat.add_mul]
          omega
        · obtain ⟨h5, h6⟩ := ihv (c :: r) hM
          rcases ok_or (valueW f sp (c :: r)) with ⟨⟨v, r2⟩, hv⟩ | hn
          · obtain ⟨h7, h8⟩ := h5 v r2 (by rw [hv])
            rw [hv, bind_ok]
            rw [hv] at h8
            simp only
            obtain ⟨h9, h10⟩ := ihl r2 (acc ++ [v]) (by omega)
            rcases ok_or (listW f sp r2 (acc ++ [v])) with ⟨⟨es, r3⟩, hd⟩ | hn
            · obtain ⟨h11, h12⟩ := h9 es r3 (by rw [hd])
              have hne : r2 ≠ [] := by rintro rfl; simp at h11
              rw [slack, if_neg hne] at h8
              rw [hd]
              refine ⟨fun v t h => ?_, fun h => absurd rfl (h _)⟩
              cases h
              rw [hd] at h12
              simp only at *
              omega
            · refine ⟨fun v t h => absurd h (hn _), fun _ => ?_⟩
              have h10 := h10 hn
              have hs : slack sp r2 = if r2 = [] then 2 * sp.length else 0 := rfl
              by_cases h0 : r2 = []
              · rw [if_pos h0] at h10 hs
                simp only at *
                omega
              · rw [if_neg h0] at h10 hs
                simp only at *
                omega
          · have hb := bind_not_ok (fun (x : Value × Bytes) => listW f sp x.2 (acc ++ [x.1])) hn
            refine ⟨fun v t h => absurd h (hb.2 _), fun _ => ?_⟩
            rw [hb.1]
            have h6 := h6 hn
            simp only [List.cons_ne_nil, if_false] at h6
            omega

theorem decodeW_le (data sp : Bytes) : (DecodeW data sp).2 ≤ (data.length + 6) * data.length + 2 * sp.length := by
  rw [decodeW_snd]
  obtain ⟨h1, h2⟩ := (all_le data.length sp (2 * data.length + 1)).1 data (Nat.le_refl _)
  rcases ok_or (valueW (2 * data.length + 1) sp data) with ⟨⟨v, r⟩, hv⟩ | hn
  · have := (h1 v r (by rw [hv])).2
    have := slack_le sp r
    omega
  · have := h2 hn
    omega

end Verif.Work
