import Verif.Lemmas.BencodeEncode
set_option autoImplicit false

namespace Verif.Bencode
open Spec

/-! ### unfolding equations -/

theorem decodeValue_cons (f : Nat) (sp : Bytes) (c : UInt8) (r : Bytes) :
    decodeValue (f + 1) sp (c :: r) =
      if c = 100 then (do let (es, r') ← dictLoop f sp r []; .ok (.dict es, r'))
      else if c = 108 then (do let (vs, r') ← listLoop f sp r []; .ok (.list vs, r'))
      else if c = 105 then (do let (i, r') ← decodeInt (c :: r); .ok (.int64 i, r'))
      else (do let (s, r') ← decodeString sp (c :: r); .ok (.str s, r')) := by
  rw [decodeValue]

theorem listLoop_cons (f : Nat) (sp : Bytes) (c : UInt8) (r : Bytes) (acc : List Value) :
    listLoop (f + 1) sp (c :: r) acc =
      if c = 101 then .ok (acc, r)
      else (do let (v, r1) ← decodeValue f sp (c :: r); listLoop f sp r1 (acc ++ [v])) := by
  rw [listLoop]

theorem dictLoop_cons (f : Nat) (sp : Bytes) (c : UInt8) (r : Bytes) (acc : Dict) :
    dictLoop (f + 1) sp (c :: r) acc =
      if c = 101 then .ok (acc, r)
      else (do let (k, r1) ← decodeString sp (c :: r)
               let (v, r2) ← decodeValue f sp r1
               dictLoop f sp r2 (mapSet acc k v)) := by
  rw [dictLoop]

theorem decodeValue_nil (f : Nat) (sp : Bytes) : decodeValue (f + 1) sp [] = .panic := by rw [decodeValue]
theorem listLoop_nil (f : Nat) (sp : Bytes) (acc : List Value) : listLoop (f + 1) sp [] acc = .panic := by rw [listLoop]
theorem dictLoop_nil (f : Nat) (sp : Bytes) (acc : Dict) : dictLoop (f + 1) sp [] acc = .panic := by rw [dictLoop]
theorem decodeValue_zero (sp inp : Bytes) : decodeValue 0 sp inp = .timeout := by rw [decodeValue]
theorem listLoop_zero (sp inp : Bytes) (acc : List Value) : listLoop 0 sp inp acc = .timeout := by rw [listLoop]
theorem dictLoop_zero (sp inp : Bytes) (acc : Dict) : dictLoop 0 sp inp acc = .timeout := by rw [dictLoop]

/-! ### strings and integers -/

theorem dropWhile_cons_not {p : UInt8 → Bool} {l : Bytes} {c : UInt8} {r : Bytes} (h : l.dropWhile p = c :: r) :
    p c = false := by
  induction l with
  | nil => simp at h
  | cons a l ih =>
    by_cases ha : p a = true
    · rw [List.dropWhile_cons_of_pos ha] at h; exact ih h
    · rw [List.dropWhile_cons_of_neg ha] at h
      obtain ⟨rfl, rfl⟩ := List.cons.inj h
      simpa using ha

theorem split_digits {inp : Bytes} {c : UInt8} {r : Bytes} (h : inp.dropWhile isDigit = c :: r) :
    ∃ ds, inp = ds ++ c :: r ∧ (∀ d ∈ ds, isDigit d = true) ∧ inp.takeWhile isDigit = ds ∧ isDigit c = false := by
  refine ⟨inp.takeWhile isDigit, ?_, ?_, rfl, dropWhile_cons_not h⟩
  · rw [← h, List.takeWhile_append_dropWhile]
  · have := List.all_takeWhile (l := inp) (p := isDigit)
    exact fun d hd => List.all_eq_true.mp this d hd

theorem decodeString_ext {inp s r : Bytes} (h : decodeString [] inp = .ok (s, r)) :
    ∃ p, p ≠ [] ∧ inp = p ++ r ∧ s <:+: p ∧ ∀ sp r', decodeString sp (p ++ r') = .ok (s, r') := by
  unfold decodeString at h
  split at h
  · cases h
  · rename_i c rr hdw
    obtain ⟨ds, rfl, hds, htw, hc⟩ := split_digits hdw
    split at h
    · rename_i hc58
      subst hc58
      rw [htw] at h
      split at h
      · cases h
      · rename_i n hn
        split at h
        · rename_i hle
          simp only [List.length_nil, Nat.add_zero] at hle
          simp only [List.append_nil, Res.ok.injEq, Prod.mk.injEq] at h
          obtain ⟨rfl, rfl⟩ := h
          refine ⟨ds ++ 58 :: rr.take n, by simp, by simp, ?_, ?_⟩
          · exact ⟨ds ++ [58], [], by simp⟩
          · intro sp r'
            unfold decodeString
            rw [List.append_assoc, List.cons_append, dropWhile_digits _ _ _ hds isDigit_colon,
              takeWhile_digits _ _ _ hds isDigit_colon]
            simp only [if_pos, hn]
            rw [if_pos (by simp; omega)]
            have : (rr.take n).length = n := by simp; omega
            rw [List.append_assoc, List.take_append_of_le_length (by omega), List.drop_append_of_le_length (by omega),
              List.take_of_length_le (by omega), List.drop_of_length_le (by omega)]
            simp
        · cases h
    · cases h

theorem decodeString_spare (sp inp : Bytes) :
    decodeString sp inp = decodeString [] inp ∨
      ∃ s, decodeString sp inp = .ok (s, []) ∧ decodeString [] inp = .panic := by
  unfold decodeString
  split
  · exact .inl rfl
  · rename_i c rr _
    split
    · split
      · exact .inl rfl
      · rename_i n hn
        by_cases h1 : n ≤ rr.length
        · left
          rw [if_pos (by omega), if_pos (by simpa using h1)]
          simp [List.take_append_of_le_length h1]
        · by_cases h2 : n ≤ rr.length + sp.length
          · right
            rw [if_pos h2, if_neg (by simpa using h1)]
            exact ⟨_, by rw [List.drop_of_length_le (by omega)], rfl⟩
          · left
            rw [if_neg h2, if_neg (by simpa using h1)]
    · exact .inl rfl

theorem decodeString_no_timeout (sp inp : Bytes) : decodeString sp inp ≠ .timeout := by
  unfold decodeString
  split
  · simp
  · split
    · split
      · simp
      · split <;> simp
    · simp

theorem decodeIntTail_ext {neg : Bool} {pre inp r : Bytes} {i : Int} (h : decodeIntTail neg pre inp = .ok (i, r)) :
    ∃ p, p ≠ [] ∧ inp = p ++ r ∧ p.head? = inp.head? ∧ ∀ r', decodeIntTail neg pre (p ++ r') = .ok (i, r') := by
  unfold decodeIntTail at h
  split at h
  · cases h
  · rename_i c rr hdw
    obtain ⟨ds, rfl, hds, htw, hc⟩ := split_digits hdw
    split at h
    · rename_i hc58
      subst hc58
      rw [htw] at h
      cases hn : parseDigits (pre ++ ds) with
      | none => rw [hn] at h; cases h
      | some n =>
        rw [hn] at h
        simp only [Res.ok.injEq, Prod.mk.injEq] at h
        obtain ⟨hi, rfl⟩ := h
        refine ⟨ds ++ [101], by simp, by simp, by cases ds <;> simp, ?_⟩
        intro r'
        unfold decodeIntTail
        rw [List.append_assoc, List.cons_append, dropWhile_digits _ _ _ hds isDigit_e,
          takeWhile_digits _ _ _ hds isDigit_e]
        simp only [if_pos, hn, List.nil_append, hi]
    · cases h

theorem decodeIntTail_no_timeout (neg : Bool) (pre inp : Bytes) : decodeIntTail neg pre inp ≠ .timeout := by
  unfold decodeIntTail
  split
  · simp
  · split
    · cases parseDigits (pre ++ List.takeWhile isDigit inp) <;> simp
    · simp

theorem decodeIntBody_ext {neg : Bool} {inp r : Bytes} {i : Int} (h : decodeIntBody neg inp = .ok (i, r)) :
    ∃ p, p ≠ [] ∧ inp = p ++ r ∧ ∀ r', decodeIntBody neg (p ++ r') = .ok (i, r') := by
  unfold decodeIntBody at h
  split at h
  · cases h
  · rename_i c rr
    split at h
    · rename_i hc
      subst hc
      split at h
      · cases h
      · rename_i c' r''
        split at h
        · rename_i hc'
          subst hc'
          obtain ⟨p, hp, he, hh, hx⟩ := decodeIntTail_ext h
          refine ⟨48 :: p, by simp, by rw [he]; simp, ?_⟩
          intro r'
          obtain ⟨c, p, rfl⟩ := List.exists_cons_of_ne_nil hp
          simp only [List.head?_cons, Option.some.injEq] at hh
          subst hh
          have := hx r'
          rw [List.cons_append] at this ⊢
          simpa [decodeIntBody] using this
        · cases h
    · rename_i hc
      obtain ⟨p, hp, he, hh, hx⟩ := decodeIntTail_ext h
      refine ⟨p, hp, he, fun r' => ?_⟩
      obtain ⟨c', p, rfl⟩ := List.exists_cons_of_ne_nil hp
      simp only [List.head?_cons, Option.some.injEq] at hh
      subst hh
      have := hx r'
      rw [List.cons_append] at this ⊢
      rw [decodeIntBody.eq_def]
      simp only [if_neg hc]
      exact this

theorem decodeIntBody_no_timeout (neg : Bool) (inp : Bytes) : decodeIntBody neg inp ≠ .timeout := by
  unfold decodeIntBody
  split
  · simp
  · split
    · split
      · simp
      · split
        · exact decodeIntTail_no_timeout _ _ _
        · simp
    · exact decodeIntTail_no_timeout _ _ _

theorem decodeInt_ext {inp r : Bytes} {i : Int} (h : decodeInt inp = .ok (i, r)) :
    ∃ p, p ≠ [] ∧ inp = p ++ r ∧ ∀ r', decodeInt (p ++ r') = .ok (i, r') := by
  unfold decodeInt at h
  split at h
  · cases h
  · rename_i c rr
    split at h
    · rename_i hc
      subst hc
      split at h
      · cases h
      · rename_i s r'
        split at h
        · rename_i hs
          subst hs
          obtain ⟨p, hp, he, hx⟩ := decodeIntBody_ext h
          exact ⟨105 :: 45 :: p, by simp, by rw [he]; simp, fun r' => by simpa [decodeInt] using hx r'⟩
        · rename_i hs
          obtain ⟨p, hp, he, hx⟩ := decodeIntBody_ext h
          refine ⟨105 :: p, by simp, by rw [he]; simp, fun r' => ?_⟩
          obtain ⟨c, p, rfl⟩ := List.exists_cons_of_ne_nil hp
          obtain ⟨rfl, _⟩ := List.cons.inj he
          rw [decodeInt.eq_def]
          simp only [List.cons_append, if_true, if_neg hs]
          exact hx r'
    · cases h

theorem decodeInt_no_timeout (inp : Bytes) : decodeInt inp ≠ .timeout := by
  unfold decodeInt
  split
  · simp
  · split
    · split
      · simp
      · split <;> exact decodeIntBody_no_timeout _ _
    · simp

/-! ### successful runs consume a prefix and do not look further -/

theorem within_list {s : Bytes} {vs : List Value} : Within s (.list vs) ↔ ∃ v ∈ vs, Within s v := by
  constructor
  · intro h; cases h with | list _ v hv h => exact ⟨v, hv, h⟩
  · rintro ⟨v, hv, h⟩; exact .list _ v hv h

theorem within_dict {s : Bytes} {es : Dict} : Within s (.dict es) ↔ ∃ e ∈ es, e.1 = s ∨ Within s e.2 := by
  constructor
  · intro h
    cases h with
    | key _ v hv => exact ⟨_, hv, .inl rfl⟩
    | val _ k v hv h => exact ⟨_, hv, .inr h⟩
  · rintro ⟨e, he, h | h⟩
    · exact .key _ e.2 (h ▸ he)
    · exact .val _ e.1 e.2 he h

theorem mapSet_mem {es : Dict} {k : Bytes} {v : Value} {e : Bytes × Value} (h : e ∈ mapSet es k v) :
    e ∈ es ∨ e = (k, v) := by
  induction es with
  | nil => right; simpa [mapSet] using h
  | cons x es ih =>
    obtain ⟨k', v'⟩ := x
    rw [mapSet] at h
    split at h
    · rcases List.mem_cons.mp h with h | h
      · exact .inr h
      · exact .inl (List.mem_cons_of_mem _ h)
    · rcases List.mem_cons.mp h with h | h
      · exact .inl (h ▸ List.mem_cons_self)
      · rcases ih h with h | h
        · exact .inl (List.mem_cons_of_mem _ h)
        · exact .inr h

theorem infix_left {s p q : Bytes} (h : s <:+: p) : s <:+: p ++ q := h.trans (List.prefix_append p q).isInfix
theorem infix_right {s p q : Bytes} (h : s <:+: q) : s <:+: p ++ q := h.trans (List.suffix_append p q).isInfix

theorem decode_ext (f : Nat) :
    (∀ inp v r, decodeValue f [] inp = .ok (v, r) →
      ∃ p, p ≠ [] ∧ inp = p ++ r ∧ (∀ s, Within s v → s <:+: p) ∧ ∀ sp r', decodeValue f sp (p ++ r') = .ok (v, r')) ∧
    (∀ inp acc vs r, listLoop f [] inp acc = .ok (vs, r) →
      ∃ p, p ≠ [] ∧ inp = p ++ r ∧ (∀ v ∈ vs, v ∈ acc ∨ ∀ s, Within s v → s <:+: p) ∧
        ∀ sp r', listLoop f sp (p ++ r') acc = .ok (vs, r')) ∧
    (∀ inp acc es r, dictLoop f [] inp acc = .ok (es, r) →
      ∃ p, p ≠ [] ∧ inp = p ++ r ∧ (∀ e ∈ es, e ∈ acc ∨ (e.1 <:+: p ∧ ∀ s, Within s e.2 → s <:+: p)) ∧
        ∀ sp r', dictLoop f sp (p ++ r') acc = .ok (es, r')) := by
  induction f with
  | zero =>
    refine ⟨?_, ?_, ?_⟩
    · intro inp v r h; rw [decodeValue_zero] at h; cases h
    · intro inp acc v r h; rw [listLoop_zero] at h; cases h
    · intro inp acc v r h; rw [dictLoop_zero] at h; cases h
  | succ f ih =>
    obtain ⟨ihV, ihL, ihD⟩ := ih
    refine ⟨?_, ?_, ?_⟩
    · intro inp v r h
      cases inp with
      | nil => rw [decodeValue_nil] at h; cases h
      | cons c rr =>
        rw [decodeValue_cons] at h
        by_cases h1 : c = 100
        · rw [if_pos h1] at h
          obtain ⟨⟨es, r1⟩, ha, hb⟩ := Res.bind_eq_ok.mp h
          simp only [Res.ok.injEq, Prod.mk.injEq] at hb
          obtain ⟨rfl, rfl⟩ := hb
          obtain ⟨p, hp, he, hw, hx⟩ := ihD _ _ _ _ ha
          refine ⟨c :: p, by simp, by rw [he]; rfl, ?_, ?_⟩
          · intro s hs
            obtain ⟨e, hem, hes⟩ := within_dict.mp hs
            rcases hw e hem with h0 | ⟨hk, hv⟩
            · cases h0
            · rcases hes with rfl | hes
              · exact List.infix_cons hk
              · exact List.infix_cons (hv s hes)
          · intro sp r'
            rw [List.cons_append, decodeValue_cons, if_pos h1, hx]; rfl
        · rw [if_neg h1] at h
          by_cases h2 : c = 108
          · rw [if_pos h2] at h
            obtain ⟨⟨es, r1⟩, ha, hb⟩ := Res.bind_eq_ok.mp h
            simp only [Res.ok.injEq, Prod.mk.injEq] at hb
            obtain ⟨rfl, rfl⟩ := hb
            obtain ⟨p, hp, he, hw, hx⟩ := ihL _ _ _ _ ha
            refine ⟨c :: p, by simp, by rw [he]; rfl, ?_, ?_⟩
            · intro s hs
              obtain ⟨e, hem, hes⟩ := within_list.mp hs
              rcases hw e hem with h0 | hv
              · cases h0
              · exact List.infix_cons (hv s hes)
            · intro sp r'
              rw [List.cons_append, decodeValue_cons, if_neg h1, if_pos h2, hx]; rfl
          · rw [if_neg h2] at h
            by_cases h3 : c = 105
            · rw [if_pos h3] at h
              obtain ⟨⟨i, r1⟩, ha, hb⟩ := Res.bind_eq_ok.mp h
              simp only [Res.ok.injEq, Prod.mk.injEq] at hb
              obtain ⟨rfl, rfl⟩ := hb
              obtain ⟨p, hp, he, hx⟩ := decodeInt_ext ha
              refine ⟨p, hp, he, ?_, ?_⟩
              · intro s hs; cases hs
              · intro sp r'
                obtain ⟨c', p, rfl⟩ := List.exists_cons_of_ne_nil hp
                obtain ⟨rfl, _⟩ := List.cons.inj he
                have := hx r'
                rw [List.cons_append] at this ⊢
                rw [decodeValue_cons, if_neg h1, if_neg h2, if_pos h3, this]; rfl
            · rw [if_neg h3] at h
              obtain ⟨⟨i, r1⟩, ha, hb⟩ := Res.bind_eq_ok.mp h
              simp only [Res.ok.injEq, Prod.mk.injEq] at hb
              obtain ⟨rfl, rfl⟩ := hb
              obtain ⟨p, hp, he, hw, hx⟩ := decodeString_ext ha
              refine ⟨p, hp, he, ?_, ?_⟩
              · intro s hs; cases hs; exact hw
              · intro sp r'
                obtain ⟨c', p, rfl⟩ := List.exists_cons_of_ne_nil hp
                obtain ⟨rfl, _⟩ := List.cons.inj he
                have := hx sp r'
                rw [List.cons_append] at this ⊢
                rw [decodeValue_cons, if_neg h1, if_neg h2, if_neg h3, this]; rfl
    · intro inp acc vs r h
      cases inp with
      | nil => rw [listLoop_nil] at h; cases h
      | cons c rr =>
        rw [listLoop_cons] at h
        by_cases h1 : c = 101
        · rw [if_pos h1] at h
          simp only [Res.ok.injEq, Prod.mk.injEq] at h
          obtain ⟨rfl, rfl⟩ := h
          exact ⟨[c], by simp, by simp, fun v hv => .inl hv, fun sp r' => by
            rw [List.singleton_append, listLoop_cons, if_pos h1]⟩
        · rw [if_neg h1] at h
          obtain ⟨⟨v, r1⟩, ha, hb⟩ := Res.bind_eq_ok.mp h
          obtain ⟨p, hp, he, hw, hx⟩ := ihV _ _ _ ha
          obtain ⟨q, hq, he', hw', hx'⟩ := ihL _ _ _ _ hb
          refine ⟨p ++ q, by simp [hp], by rw [he, he', List.append_assoc], ?_, ?_⟩
          · intro w hwm
            rcases hw' w hwm with h0 | h0
            · rcases List.mem_append.mp h0 with h0 | h0
              · exact .inl h0
              · rw [List.mem_singleton] at h0; subst h0
                exact .inr fun s hs => infix_left (hw s hs)
            · exact .inr fun s hs => infix_right (h0 s hs)
          · intro sp r'
            obtain ⟨c', p, rfl⟩ := List.exists_cons_of_ne_nil hp
            obtain ⟨rfl, _⟩ := List.cons.inj he
            have := hx sp (q ++ r')
            rw [List.cons_append] at this
            rw [List.append_assoc, List.cons_append, listLoop_cons, if_neg h1, this]
            exact hx' sp r'
    · intro inp acc vs r h
      cases inp with
      | nil => rw [dictLoop_nil] at h; cases h
      | cons c rr =>
        rw [dictLoop_cons] at h
        by_cases h1 : c = 101
        · rw [if_pos h1] at h
          simp only [Res.ok.injEq, Prod.mk.injEq] at h
          obtain ⟨rfl, rfl⟩ := h
          exact ⟨[c], by simp, by simp, fun v hv => .inl hv, fun sp r' => by
            rw [List.singleton_append, dictLoop_cons, if_pos h1]⟩
        · rw [if_neg h1] at h
          obtain ⟨⟨k, r0⟩, h0, hb⟩ := Res.bind_eq_ok.mp h
          obtain ⟨⟨v, r1⟩, ha, hb⟩ := Res.bind_eq_ok.mp hb
          obtain ⟨o, ho, heo, hwo, hxo⟩ := decodeString_ext h0
          obtain ⟨p, hp, he, hw, hx⟩ := ihV _ _ _ ha
          obtain ⟨q, hq, he', hw', hx'⟩ := ihD _ _ _ _ hb
          refine ⟨o ++ (p ++ q), by simp [hp], by rw [heo, he, he']; simp, ?_, ?_⟩
          · intro w hwm
            rcases hw' w hwm with h0 | ⟨h0, h1⟩
            · rcases mapSet_mem h0 with h0 | h0
              · exact .inl h0
              · subst h0
                exact .inr ⟨infix_left hwo, fun s hs => infix_right (infix_left (hw s hs))⟩
            · exact .inr ⟨infix_right (infix_right h0), fun s hs => infix_right (infix_right (h1 s hs))⟩
          · intro sp r'
            obtain ⟨c', o, rfl⟩ := List.exists_cons_of_ne_nil ho
            obtain ⟨rfl, _⟩ := List.cons.inj heo
            have := hxo sp (p ++ q ++ r')
            rw [List.cons_append] at this
            rw [List.append_assoc, List.cons_append, dictLoop_cons, if_neg h1, this]
            have := hx sp (q ++ r')
            rw [← List.append_assoc] at this
            simp only [Res.ok_bind, this]
            exact hx' sp r'

theorem decodeString_progress {inp s r : Bytes} (h : decodeString [] inp = .ok (s, r)) : r.length < inp.length := by
  obtain ⟨p, hp, he, -, -⟩ := decodeString_ext h
  have := List.length_pos_iff.mpr hp
  rw [he, List.length_append]; omega

theorem decodeValue_progress {f : Nat} {inp : Bytes} {v : Value} {r : Bytes} (h : decodeValue f [] inp = .ok (v, r)) :
    r.length < inp.length := by
  obtain ⟨p, hp, he, -, -⟩ := (decode_ext f).1 _ _ _ h
  have := List.length_pos_iff.mpr hp
  rw [he, List.length_append]; omega

/-! ### enough fuel -/

theorem bind_ne_timeout {α β : Type} {x : Res α} {g : α → Res β} (h1 : x ≠ .timeout)
    (h2 : ∀ a, x = .ok a → g a ≠ .timeout) : (x >>= g) ≠ .timeout := by
  cases x with
  | ok a => exact h2 a rfl
  | err e => simp
  | panic => simp
  | timeout => exact absurd rfl h1

theorem decode_no_timeout (f : Nat) :
    (∀ inp : Bytes, 2 * inp.length + 1 ≤ f → decodeValue f [] inp ≠ .timeout) ∧
    (∀ (inp : Bytes) acc, 2 * inp.length + 2 ≤ f → listLoop f [] inp acc ≠ .timeout) ∧
    (∀ (inp : Bytes) acc, 2 * inp.length + 2 ≤ f → dictLoop f [] inp acc ≠ .timeout) := by
  induction f with
  | zero => exact ⟨fun _ h => by omega, fun _ _ h => by omega, fun _ _ h => by omega⟩
  | succ f ih =>
    obtain ⟨ihV, ihL, ihD⟩ := ih
    refine ⟨?_, ?_, ?_⟩
    · intro inp hf
      cases inp with
      | nil => rw [decodeValue_nil]; simp
      | cons c rr =>
        simp only [List.length_cons] at hf
        rw [decodeValue_cons]
        split
        · exact bind_ne_timeout (ihD _ _ (by omega)) (by simp)
        · split
          · exact bind_ne_timeout (ihL _ _ (by omega)) (by simp)
          · split
            · exact bind_ne_timeout (decodeInt_no_timeout _) (by simp)
            · exact bind_ne_timeout (decodeString_no_timeout _ _) (by simp)
    · intro inp acc hf
      cases inp with
      | nil => rw [listLoop_nil]; simp
      | cons c rr =>
        rw [listLoop_cons]
        split
        · simp
        · refine bind_ne_timeout (ihV _ (by omega)) ?_
          rintro ⟨v, r1⟩ h
          have := decodeValue_progress h
          exact ihL _ _ (by omega)
    · intro inp acc hf
      cases inp with
      | nil => rw [dictLoop_nil]; simp
      | cons c rr =>
        rw [dictLoop_cons]
        split
        · simp
        · refine bind_ne_timeout (decodeString_no_timeout _ _) ?_
          rintro ⟨k, r0⟩ h0
          have hp0 := decodeString_progress h0
          refine bind_ne_timeout (ihV _ (by omega)) ?_
          rintro ⟨v, r1⟩ h
          have := decodeValue_progress h
          exact ihD _ _ (by omega)

theorem bind_mono {α β : Type} {x y : Res α} {g g' : α → Res β}
    (h1 : x ≠ .timeout → y = x) (h2 : ∀ a, g a ≠ .timeout → g' a = g a) (h : (x >>= g) ≠ .timeout) :
    (y >>= g') = (x >>= g) := by
  cases x with
  | ok a => rw [h1 (by simp)]; exact h2 a h
  | err e => rw [h1 (by simp)]; rfl
  | panic => rw [h1 (by simp)]; rfl
  | timeout => exact absurd rfl h

theorem decode_mono (sp : Bytes) (f : Nat) :
    (∀ inp, decodeValue f sp inp ≠ .timeout → decodeValue (f + 1) sp inp = decodeValue f sp inp) ∧
    (∀ inp acc, listLoop f sp inp acc ≠ .timeout → listLoop (f + 1) sp inp acc = listLoop f sp inp acc) ∧
    (∀ inp acc, dictLoop f sp inp acc ≠ .timeout → dictLoop (f + 1) sp inp acc = dictLoop f sp inp acc) := by
  induction f with
  | zero =>
    exact ⟨fun _ h => absurd (decodeValue_zero _ _) h, fun _ _ h => absurd (listLoop_zero _ _ _) h,
      fun _ _ h => absurd (dictLoop_zero _ _ _) h⟩
  | succ f ih =>
    obtain ⟨ihV, ihL, ihD⟩ := ih
    refine ⟨?_, ?_, ?_⟩
    · intro inp h
      cases inp with
      | nil => rw [decodeValue_nil, decodeValue_nil]
      | cons c rr =>
        rw [decodeValue_cons] at h
        rw [decodeValue_cons, decodeValue_cons]
        by_cases h1 : c = 100
        · simp only [if_pos h1] at h ⊢
          exact bind_mono (ihD _ _) (fun _ _ => rfl) h
        · by_cases h2 : c = 108
          · simp only [if_neg h1, if_pos h2] at h ⊢
            exact bind_mono (ihL _ _) (fun _ _ => rfl) h
          · simp only [if_neg h1, if_neg h2]
    · intro inp acc h
      cases inp with
      | nil => rw [listLoop_nil, listLoop_nil]
      | cons c rr =>
        rw [listLoop_cons] at h
        rw [listLoop_cons, listLoop_cons]
        by_cases h1 : c = 101
        · simp only [if_pos h1]
        · simp only [if_neg h1] at h ⊢
          exact bind_mono (ihV _) (fun a => ihL _ _) h
    · intro inp acc h
      cases inp with
      | nil => rw [dictLoop_nil, dictLoop_nil]
      | cons c rr =>
        rw [dictLoop_cons] at h
        rw [dictLoop_cons, dictLoop_cons]
        by_cases h1 : c = 101
        · simp only [if_pos h1]
        · simp only [if_neg h1] at h ⊢
          exact bind_mono (fun _ => rfl) (fun a ha => bind_mono (ihV _) (fun b => ihD _ _) ha) h

theorem decodeValue_fuel {sp inp : Bytes} {f g : Nat} (h : decodeValue f sp inp ≠ .timeout) (hg : f ≤ g) :
    decodeValue g sp inp = decodeValue f sp inp := by
  obtain ⟨k, rfl⟩ := Nat.exists_eq_add_of_le hg
  induction k with
  | zero => rfl
  | succ k ih =>
    have ih := ih (by omega)
    rw [← Nat.add_assoc, (decode_mono sp (f + k)).1 inp (by rw [ih]; exact h), ih]

/-! ### spare capacity -/

theorem decode_spare (sp : Bytes) (f : Nat) :
    (∀ inp : Bytes, 2 * inp.length + 1 ≤ f → decodeValue f sp inp = decodeValue f [] inp ∨
        ∃ v, decodeValue f sp inp = .ok (v, []) ∧ decodeValue f [] inp = .panic) ∧
    (∀ (inp : Bytes) acc, 2 * inp.length + 2 ≤ f → listLoop f sp inp acc = listLoop f [] inp acc) ∧
    (∀ (inp : Bytes) acc, 2 * inp.length + 2 ≤ f → dictLoop f sp inp acc = dictLoop f [] inp acc) := by
  induction f with
  | zero => exact ⟨fun _ h => by omega, fun _ _ h => by omega, fun _ _ h => by omega⟩
  | succ f ih =>
    obtain ⟨ihV, ihL, ihD⟩ := ih
    refine ⟨?_, ?_, ?_⟩
    · intro inp hf
      cases inp with
      | nil => rw [decodeValue_nil, decodeValue_nil]; exact .inl rfl
      | cons c rr =>
        simp only [List.length_cons] at hf
        rw [decodeValue_cons, decodeValue_cons]
        split
        · left; rw [ihD _ _ (by omega)]
        · split
          · left; rw [ihL _ _ (by omega)]
          · split
            · exact .inl rfl
            · rcases decodeString_spare sp (c :: rr) with h | ⟨s, h, h'⟩
              · rw [h]; exact .inl rfl
              · rw [h, h']; exact .inr ⟨_, rfl, rfl⟩
    · intro inp acc hf
      cases inp with
      | nil => rw [listLoop_nil, listLoop_nil]
      | cons c rr =>
        rw [listLoop_cons, listLoop_cons]
        split
        · rfl
        · rcases ihV (c :: rr) (by omega) with h | ⟨v, h, h'⟩
          · rw [h]
            cases hx : decodeValue f [] (c :: rr) with
            | ok a =>
              have := decodeValue_progress hx
              exact ihL _ _ (by omega)
            | err e => rfl
            | panic => rfl
            | timeout => rfl
          · rw [h, h']
            obtain ⟨g, rfl⟩ : ∃ g, f = g + 1 := ⟨f - 1, by simp only [List.length_cons] at hf; omega⟩
            simp only [Res.ok_bind, listLoop_nil]; rfl
    · intro inp acc hf
      cases inp with
      | nil => rw [dictLoop_nil, dictLoop_nil]
      | cons c rr =>
        have hf0 : ∃ g, f = g + 1 := ⟨f - 1, by simp only [List.length_cons] at hf; omega⟩
        rw [dictLoop_cons, dictLoop_cons]
        split
        · rfl
        · rcases decodeString_spare sp (c :: rr) with h | ⟨s, h, h'⟩
          · rw [h]
            cases hx : decodeString [] (c :: rr) with
            | ok a =>
              have hp := decodeString_progress hx
              simp only [Res.ok_bind]
              rcases ihV a.2 (by omega) with h | ⟨v, h, h'⟩
              · rw [h]
                cases hx : decodeValue f [] a.2 with
                | ok b =>
                  have := decodeValue_progress hx
                  exact ihD _ _ (by omega)
                | err e => rfl
                | panic => rfl
                | timeout => rfl
              · rw [h, h']
                obtain ⟨g, rfl⟩ := hf0
                simp only [Res.ok_bind, dictLoop_nil]; rfl
            | err e => rfl
            | panic => rfl
            | timeout => rfl
          · rw [h, h']
            obtain ⟨g, rfl⟩ := hf0
            simp only [Res.ok_bind, decodeValue_nil]
            rfl

/-! ### `Decode` -/

theorem decodeValue_total (sp inp : Bytes) {f : Nat} (hf : 2 * inp.length + 1 ≤ f) : decodeValue f sp inp ≠ .timeout := by
  rcases (decode_spare sp f).1 inp hf with h | ⟨v, h, -⟩
  · rw [h]; exact (decode_no_timeout f).1 inp hf
  · rw [h]; simp

theorem decodeFuel_eq (sp inp : Bytes) {f : Nat} (hf : 2 * inp.length + 1 ≤ f) : DecodeFuel f inp sp = Decode inp sp := by
  unfold Decode DecodeFuel
  rw [decodeValue_fuel (decodeValue_total sp inp (Nat.le_refl _)) hf]

theorem decode_ok_iff (inp sp : Bytes) (v : Value) :
    Decode inp sp = .ok v ↔ ∃ r, decodeValue (2 * inp.length + 1) sp inp = .ok (v, r) := by
  unfold Decode DecodeFuel
  split
  · rename_i w r h; rw [h]; simp
  · rename_i h; rw [h]; simp
  · rename_i h; rw [h]; simp
  · rename_i h; rw [h]; simp

/-- `Decode` on a canonical document (followed by anything) -/
theorem decode_canon {v : Value} {b : Bytes} (h : Canon v b) (hl : LenOk v) (rest sp : Bytes) :
    (AllInts DecInt v → Decode (b ++ rest) sp = .ok v) ∧ (¬ AllInts DecInt v → Decode (b ++ rest) sp = .err .strconv) := by
  have := decodeValue_canon h (2 * (b ++ rest).length + 1) sp rest (by simp; omega) hl
  constructor
  · intro ha; unfold Decode DecodeFuel; rw [this.1 ha]
  · intro ha; unfold Decode DecodeFuel; rw [this.2 ha]

/-- the decoder sees only the visible bytes unless the document starts like a string -/
theorem decode_spare_eq (c : UInt8) (r sp : Bytes) (h : c = 100 ∨ c = 108 ∨ c = 105) :
    Decode (c :: r) sp = Decode (c :: r) [] := by
  unfold Decode DecodeFuel
  have hs := decode_spare sp (2 * (c :: r).length)
  have e : decodeValue (2 * (c :: r).length + 1) sp (c :: r) = decodeValue (2 * (c :: r).length + 1) [] (c :: r) := by
    rw [decodeValue_cons, decodeValue_cons]
    split
    · rw [hs.2.2 _ _ (by simp; omega)]
    · split
      · rw [hs.2.1 _ _ (by simp; omega)]
      · split
        · rfl
        · simp_all
  rw [e]

theorem decode_append {data : Bytes} {v : Value} (h : Decode data [] = .ok v) (ext sp : Bytes) :
    Decode (data ++ ext) sp = .ok v := by
  obtain ⟨r, hr⟩ := (decode_ok_iff _ _ _).mp h
  obtain ⟨p, hp, he, -, hx⟩ := (decode_ext _).1 _ _ _ hr
  refine (decode_ok_iff _ _ _).mpr ⟨r ++ ext, ?_⟩
  have e : data ++ ext = p ++ (r ++ ext) := by rw [he]; simp
  have h1 := hx sp (r ++ ext)
  rw [← e] at h1
  rw [decodeValue_fuel (by rw [h1]; simp) (g := 2 * (data ++ ext).length + 1) (by simp; omega), h1]

end Verif.Bencode
