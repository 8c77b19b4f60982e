import Verif.Model.Stack
import Verif.Spec.Stack
import Verif.Lemmas.BencodeTotal
set_option autoImplicit false
namespace Verif.Stack
open Verif.Bencode Verif.Bencode.Spec Spec

theorem valueS_cons (f l : Nat) (sp : Bytes) (c : UInt8) (r : Bytes) :
    valueS (f + 1) l sp (c :: r) =
      if c = 100 then
        match l with
        | 0 => none
        | l + 1 => (dictS f l sp r []).map (fun x => x >>= fun p => .ok (.dict p.1, p.2))
      else if c = 108 then
        match l with
        | 0 => none
        | l + 1 => (listS f l sp r []).map (fun x => x >>= fun p => .ok (.list p.1, p.2))
      else some (decodeValue (f + 1) sp (c :: r)) := by
  rw [valueS.eq_def, decodeValue_cons]
  by_cases h1 : c = 100
  · simp only [h1, if_pos]
    cases l with
    | zero => rfl
    | succ l => simp only; cases dictS f l sp r [] <;> rfl
  · by_cases h2 : c = 108
    · simp only [h2, if_pos]
      cases l with
      | zero => rfl
      | succ l => simp only; cases listS f l sp r [] <;> rfl
    · by_cases h3 : c = 105
      · simp [h3]
      · simp only [if_neg h1, if_neg h2, if_neg h3]

/-- whenever the stack suffices, the result is that of the decoder without a limit -/
theorem same_or_none (f : Nat) :
    (∀ l sp inp, valueS f l sp inp = none ∨ valueS f l sp inp = some (decodeValue f sp inp)) ∧
    (∀ l sp inp acc, dictS f l sp inp acc = none ∨ dictS f l sp inp acc = some (dictLoop f sp inp acc)) ∧
    (∀ l sp inp acc, listS f l sp inp acc = none ∨ listS f l sp inp acc = some (listLoop f sp inp acc)) := by
  induction f with
  | zero =>
    refine ⟨fun _ _ _ => ?_, fun _ _ _ _ => ?_, fun _ _ _ _ => ?_⟩ <;> right
    · rw [valueS, decodeValue]
    · rw [dictS, dictLoop]
    · rw [listS, listLoop]
  | succ f ih =>
    obtain ⟨ihV, ihD, ihL⟩ := ih
    refine ⟨fun l sp inp => ?_, fun l sp inp acc => ?_, fun l sp inp acc => ?_⟩
    · cases inp with
      | nil => right; rw [valueS, decodeValue]
      | cons c r =>
        rw [valueS_cons]
        by_cases h1 : c = 100
        · rw [if_pos h1]
          cases l with
          | zero => exact .inl rfl
          | succ l =>
            rcases ihD l sp r [] with h | h
            · left; simp only [h, Option.map]
            · right; simp only [h, Option.map]; rw [decodeValue_cons, if_pos h1]
        · by_cases h2 : c = 108
          · rw [if_neg h1, if_pos h2]
            cases l with
            | zero => exact .inl rfl
            | succ l =>
              rcases ihL l sp r [] with h | h
              · left; simp only [h, Option.map]
              · right; simp only [h, Option.map]; rw [decodeValue_cons, if_neg h1, if_pos h2]
          · right; rw [if_neg h1, if_neg h2]
    · cases inp with
      | nil => right; rw [dictS, dictLoop]
      | cons c r =>
        rw [dictS, dictLoop_cons]
        by_cases h1 : c = 101
        · right; rw [if_pos h1, if_pos h1]
        · rw [if_neg h1, if_neg h1]
          cases hs : decodeString sp (c :: r) with
          | err e => exact .inr rfl
          | panic => exact .inr rfl
          | timeout => exact .inr rfl
          | ok p =>
            obtain ⟨k, r1⟩ := p
            simp only [Res.ok_bind]
            rcases ihV l sp r1 with h | h
            · left; rw [h]
            · rw [h]
              cases hv : decodeValue f sp r1 with
              | err e => exact .inr rfl
              | panic => exact .inr rfl
              | timeout => exact .inr rfl
              | ok q =>
                obtain ⟨v, r2⟩ := q
                simp only [Res.ok_bind]
                exact ihD l sp r2 _
    · cases inp with
      | nil => right; rw [listS, listLoop]
      | cons c r =>
        rw [listS, listLoop_cons]
        by_cases h1 : c = 101
        · right; rw [if_pos h1, if_pos h1]
        · rw [if_neg h1, if_neg h1]
          rcases ihV l sp (c :: r) with h | h
          · left; rw [h]
          · rw [h]
            cases hv : decodeValue f sp (c :: r) with
            | err e => exact .inr rfl
            | panic => exact .inr rfl
            | timeout => exact .inr rfl
            | ok q =>
              obtain ⟨v, r2⟩ := q
              simp only [Res.ok_bind]
              exact ihL l sp r2 _

theorem opens_append (a b : Bytes) : opens (a ++ b) = opens a + opens b := by
  simp [opens]

theorem opens_cons (c : UInt8) (b : Bytes) : opens (c :: b) = (if c = 108 ∨ c = 100 then 1 else 0) + opens b := by
  unfold opens
  rw [List.filter_cons]
  by_cases h : c = 108 ∨ c = 100
  · simp [h]; omega
  · simp [h]

/-- what a string leaves over has no more brackets than the whole -/
theorem decodeString_opens {sp inp s r : Bytes} (h : decodeString sp inp = .ok (s, r)) : opens r ≤ opens inp := by
  rcases decodeString_spare sp inp with h0 | ⟨s', h0, -⟩
  · rw [h0] at h
    obtain ⟨p, -, he, -, -⟩ := decodeString_ext h
    rw [he, opens_append]; omega
  · rw [h0] at h
    simp only [Res.ok.injEq, Prod.mk.injEq] at h
    rw [← h.2]; simp [opens]

theorem decodeInt_opens {inp r : Bytes} {i : Int} (h : decodeInt inp = .ok (i, r)) : opens r ≤ opens inp := by
  obtain ⟨p, -, he, -⟩ := decodeInt_ext h
  rw [he, opens_append]; omega

theorem decode_opens (f : Nat) :
    (∀ sp inp v r, decodeValue f sp inp = .ok (v, r) → opens r ≤ opens inp) ∧
    (∀ sp inp acc es r, dictLoop f sp inp acc = .ok (es, r) → opens r ≤ opens inp) ∧
    (∀ sp inp acc vs r, listLoop f sp inp acc = .ok (vs, r) → opens r ≤ opens inp) := by
  induction f with
  | zero =>
    refine ⟨fun _ _ _ _ h => ?_, fun _ _ _ _ _ h => ?_, fun _ _ _ _ _ h => ?_⟩
    · rw [decodeValue_zero] at h; cases h
    · rw [dictLoop_zero] at h; cases h
    · rw [listLoop_zero] at h; cases h
  | succ f ih =>
    obtain ⟨ihV, ihD, ihL⟩ := ih
    refine ⟨fun sp inp v r h => ?_, fun sp inp acc es r h => ?_, fun sp inp acc vs r h => ?_⟩
    · cases inp with
      | nil => rw [decodeValue_nil] at h; cases h
      | cons c t =>
        have ht : opens t ≤ opens (c :: t) := by rw [opens_cons]; omega
        rw [decodeValue_cons] at h
        split at h
        · obtain ⟨⟨es, r'⟩, h1, h2⟩ := Res.bind_eq_ok.mp h
          cases h2
          exact Nat.le_trans (ihD _ _ _ _ _ h1) ht
        · split at h
          · obtain ⟨⟨es, r'⟩, h1, h2⟩ := Res.bind_eq_ok.mp h
            cases h2
            exact Nat.le_trans (ihL _ _ _ _ _ h1) ht
          · split at h
            · obtain ⟨⟨es, r'⟩, h1, h2⟩ := Res.bind_eq_ok.mp h
              cases h2
              exact decodeInt_opens h1
            · obtain ⟨⟨es, r'⟩, h1, h2⟩ := Res.bind_eq_ok.mp h
              cases h2
              exact decodeString_opens h1
    · cases inp with
      | nil => rw [dictLoop_nil] at h; cases h
      | cons c t =>
        rw [dictLoop_cons] at h
        split at h
        · cases h; rw [opens_cons]; omega
        · obtain ⟨⟨k, r1⟩, h1, h2⟩ := Res.bind_eq_ok.mp h
          obtain ⟨⟨v, r2⟩, h3, h4⟩ := Res.bind_eq_ok.mp h2
          have := decodeString_opens h1
          have := ihV _ _ _ _ h3
          have := ihD _ _ _ _ _ h4
          omega
    · cases inp with
      | nil => rw [listLoop_nil] at h; cases h
      | cons c t =>
        rw [listLoop_cons] at h
        split at h
        · cases h; rw [opens_cons]; omega
        · obtain ⟨⟨v, r2⟩, h3, h4⟩ := Res.bind_eq_ok.mp h
          have := ihV _ _ _ _ h3
          have := ihL _ _ _ _ _ h4
          omega

/-- as many calls as there are opening bytes suffice -/
theorem enough (f : Nat) :
    (∀ l sp inp, opens inp ≤ l → valueS f l sp inp ≠ none) ∧
    (∀ l sp inp acc, opens inp ≤ l → dictS f l sp inp acc ≠ none) ∧
    (∀ l sp inp acc, opens inp ≤ l → listS f l sp inp acc ≠ none) := by
  induction f with
  | zero =>
    refine ⟨fun _ _ _ _ => ?_, fun _ _ _ _ _ => ?_, fun _ _ _ _ _ => ?_⟩
    · rw [valueS]; simp
    · rw [dictS]; simp
    · rw [listS]; simp
  | succ f ih =>
    obtain ⟨ihV, ihD, ihL⟩ := ih
    refine ⟨fun l sp inp hl => ?_, fun l sp inp acc hl => ?_, fun l sp inp acc hl => ?_⟩
    · cases inp with
      | nil => rw [valueS]; simp
      | cons c r =>
        rw [valueS_cons]
        rw [opens_cons] at hl
        by_cases h1 : c = 100
        · rw [if_pos h1]
          rw [if_pos (.inr h1)] at hl
          cases l with
          | zero => omega
          | succ l => simp only [ne_eq, Option.map_eq_none_iff]; exact ihD l sp r [] (by omega)
        · by_cases h2 : c = 108
          · rw [if_neg h1, if_pos h2]
            rw [if_pos (.inl h2)] at hl
            cases l with
            | zero => omega
            | succ l => simp only [ne_eq, Option.map_eq_none_iff]; exact ihL l sp r [] (by omega)
          · rw [if_neg h1, if_neg h2]; simp
    · cases inp with
      | nil => rw [dictS]; simp
      | cons c r =>
        rw [dictS]
        by_cases h1 : c = 101
        · rw [if_pos h1]; simp
        · rw [if_neg h1]
          cases hs : decodeString sp (c :: r) with
          | err e => simp
          | panic => simp
          | timeout => simp
          | ok p =>
            obtain ⟨k, r1⟩ := p
            have ho := decodeString_opens hs
            simp only
            rcases (same_or_none f).1 l sp r1 with h | h
            · exact absurd h (ihV l sp r1 (by omega))
            · rw [h]
              cases hv : decodeValue f sp r1 with
              | err e => simp
              | panic => simp
              | timeout => simp
              | ok q =>
                obtain ⟨v, r2⟩ := q
                have := (decode_opens f).1 _ _ _ _ hv
                exact ihD l sp r2 _ (by omega)
    · cases inp with
      | nil => rw [listS]; simp
      | cons c r =>
        rw [listS]
        by_cases h1 : c = 101
        · rw [if_pos h1]; simp
        · rw [if_neg h1]
          rcases (same_or_none f).1 l sp (c :: r) with h | h
          · exact absurd h (ihV l sp _ hl)
          · rw [h]
            cases hv : decodeValue f sp (c :: r) with
            | err e => simp
            | panic => simp
            | timeout => simp
            | ok q =>
              obtain ⟨v, r2⟩ := q
              have := (decode_opens f).1 _ _ _ _ hv
              exact ihL l sp r2 _ (by omega)

/-- what fits on the stack is not nested deeper -/
theorem fits_nested (f : Nat) :
    (∀ l sp inp v r, valueS f l sp inp = some (.ok (v, r)) → Nested l v) ∧
    (∀ l sp inp acc es r, (∀ e ∈ acc, Nested l e.2) → dictS f l sp inp acc = some (.ok (es, r)) → ∀ e ∈ es, Nested l e.2) ∧
    (∀ l sp inp acc vs r, (∀ v ∈ acc, Nested l v) → listS f l sp inp acc = some (.ok (vs, r)) → ∀ v ∈ vs, Nested l v) := by
  induction f with
  | zero =>
    refine ⟨fun _ _ _ _ _ h => ?_, fun _ _ _ _ _ _ _ h => ?_, fun _ _ _ _ _ _ _ h => ?_⟩
    · rw [valueS] at h; cases h
    · rw [dictS] at h; cases h
    · rw [listS] at h; cases h
  | succ f ih =>
    obtain ⟨ihV, ihD, ihL⟩ := ih
    refine ⟨fun l sp inp v r h => ?_, fun l sp inp acc es r ha h => ?_, fun l sp inp acc vs r ha h => ?_⟩
    · cases inp with
      | nil => rw [valueS] at h; cases h
      | cons c t =>
        rw [valueS_cons] at h
        by_cases h1 : c = 100
        · rw [if_pos h1] at h
          cases l with
          | zero => cases h
          | succ l =>
            simp only [Option.map_eq_some_iff] at h
            obtain ⟨x, hx, he⟩ := h
            obtain ⟨⟨es, r'⟩, rfl, h2⟩ := Res.bind_eq_ok.mp he
            cases h2
            exact .dict _ _ (ihD _ _ _ _ _ _ (by simp) hx)
        · by_cases h2 : c = 108
          · rw [if_neg h1, if_pos h2] at h
            cases l with
            | zero => cases h
            | succ l =>
              simp only [Option.map_eq_some_iff] at h
              obtain ⟨x, hx, he⟩ := h
              obtain ⟨⟨es, r'⟩, rfl, h2⟩ := Res.bind_eq_ok.mp he
              cases h2
              exact .list _ _ (ihL _ _ _ _ _ _ (by simp) hx)
          · rw [if_neg h1, if_neg h2, Option.some.injEq, decodeValue_cons, if_neg h1, if_neg h2] at h
            split at h
            · obtain ⟨⟨es, r'⟩, h1, h2⟩ := Res.bind_eq_ok.mp h
              cases h2
              exact .int64 _ _
            · obtain ⟨⟨es, r'⟩, h1, h2⟩ := Res.bind_eq_ok.mp h
              cases h2
              exact .str _ _
    · cases inp with
      | nil => rw [dictS] at h; cases h
      | cons c t =>
        rw [dictS] at h
        split at h
        · cases h; exact ha
        · split at h
          · cases h
          · cases h
          · cases h
          · rename_i k r1 _
            split at h
            · cases h
            · cases h
            · cases h
            · cases h
            · rename_i v r2 hv
              refine ihD _ _ _ _ _ _ (fun e he => ?_) h
              rcases mapSet_mem he with h0 | h0
              · exact ha e h0
              · rw [h0]; exact ihV _ _ _ _ _ hv
    · cases inp with
      | nil => rw [listS] at h; cases h
      | cons c t =>
        rw [listS] at h
        split at h
        · cases h; exact ha
        · split at h
          · cases h
          · cases h
          · cases h
          · cases h
          · rename_i v r2 hv
            refine ihL _ _ _ _ _ _ (fun e he => ?_) h
            rcases List.mem_append.mp he with h0 | h0
            · exact ha e h0
            · rw [List.mem_singleton] at h0; subst h0; exact ihV _ _ _ _ _ hv

mutual
/-- canonical documents need exactly the depth of their value -/
theorem valueS_canon {v : Value} {b : Bytes} (h : Canon v b) (f l : Nat) (sp rest : Bytes)
    (hf : b.length < f) (hl : LenOk v) (hn : Nested l v) : valueS f l sp (b ++ rest) = some (decodeValue f sp (b ++ rest)) := by
  obtain ⟨f, rfl⟩ : ∃ g, f = g + 1 := ⟨f - 1, by omega⟩
  match h with
  | .str s hs =>
    obtain ⟨c, r', hc, hd⟩ := natDec_cons s.length
    have hi : decNat s.length ++ ascii ":" ++ s ++ rest = c :: (r' ++ (ascii ":" ++ s ++ rest)) := by rw [decNat_eq, hc]; simp
    have hlit := isDigit_lit hd
    rw [hi, valueS_cons, if_neg hlit.1, if_neg hlit.2.1]
  | .int i =>
    have e : ascii "i" ++ decInt i ++ ascii "e" ++ rest = (105 : UInt8) :: (decInt i ++ ascii "e" ++ rest) := by simp [ascii]
    rw [e, valueS_cons, if_neg (by decide), if_neg (by decide)]
  | .list vs b hs =>
    have hl' : ∀ v ∈ vs, LenOk v := by cases hl; assumption
    obtain ⟨l, rfl, hn'⟩ : ∃ m, l = m + 1 ∧ ∀ v ∈ vs, Nested m v := by cases hn; exact ⟨_, rfl, by assumption⟩
    have e : ascii "l" ++ b ++ ascii "e" ++ rest = (108 : UInt8) :: (b ++ (101 : UInt8) :: rest) := by simp [ascii]
    have hb : b.length + 1 < f := by simp [ascii] at hf; omega
    have ih := listS_canon hs f l sp rest [] hb hl' hn'
    rw [e, valueS_cons, if_neg (by decide), if_pos rfl, decodeValue_cons, if_neg (by decide), if_pos rfl]
    simp only [ih, Option.map]
  | .dict es b hs hsort =>
    have hk' : ∀ e ∈ es, e.1.length < 2 ^ 63 := by cases hl; assumption
    have hl' : ∀ e ∈ es, LenOk e.2 := by cases hl; assumption
    obtain ⟨l, rfl, hn'⟩ : ∃ m, l = m + 1 ∧ ∀ e ∈ es, Nested m e.2 := by cases hn; exact ⟨_, rfl, by assumption⟩
    have e : ascii "d" ++ b ++ ascii "e" ++ rest = (100 : UInt8) :: (b ++ (101 : UInt8) :: rest) := by simp [ascii]
    have hb : b.length + 1 < f := by simp [ascii] at hf; omega
    have ih := dictS_canon hs f l sp rest [] hb hk' hl' hn'
    rw [e, valueS_cons, if_pos rfl, decodeValue_cons, if_pos rfl]
    simp only [ih, Option.map]

theorem listS_canon {vs : List Value} {b : Bytes} (h : CanonSeq vs b) (f l : Nat) (sp rest : Bytes)
    (acc : List Value) (hf : b.length + 1 < f) (hl : ∀ v ∈ vs, LenOk v) (hn : ∀ v ∈ vs, Nested l v) :
    listS f l sp (b ++ (101 : UInt8) :: rest) acc = some (listLoop f sp (b ++ (101 : UInt8) :: rest) acc) := by
  obtain ⟨f, rfl⟩ : ∃ g, f = g + 1 := ⟨f - 1, by omega⟩
  match h with
  | .nil => simp [listS, listLoop]
  | .cons v vs b bs hv hvs =>
    obtain ⟨c, r, hc, hne⟩ := canon_head hv
    have hlen : 0 < b.length := by rw [hc]; simp
    simp only [List.length_append] at hf
    have ih1 := valueS_canon hv f l sp (bs ++ (101 : UInt8) :: rest) (by omega) (hl v (by simp)) (hn v (by simp))
    have ih2 := listS_canon hvs f l sp rest (acc ++ [v]) (by omega) (fun w hw => hl w (by simp [hw])) (fun w hw => hn w (by simp [hw]))
    have hg := decodeValue_canon hv f sp (bs ++ (101 : UInt8) :: rest) (by omega) (hl v (by simp))
    rw [List.append_assoc, hc, List.cons_append, listS, listLoop_cons, if_neg hne, if_neg hne, ← List.cons_append, ← hc, ih1]
    by_cases ha : AllInts DecInt v
    · rw [hg.1 ha]
      exact ih2
    · rw [hg.2 ha]; rfl

theorem dictS_canon {es : Dict} {b : Bytes} (h : CanonEntries es b) (f l : Nat) (sp rest : Bytes)
    (acc : Dict) (hf : b.length + 1 < f) (hk : ∀ e ∈ es, e.1.length < 2 ^ 63) (hl : ∀ e ∈ es, LenOk e.2) (hn : ∀ e ∈ es, Nested l e.2) :
    dictS f l sp (b ++ (101 : UInt8) :: rest) acc = some (dictLoop f sp (b ++ (101 : UInt8) :: rest) acc) := by
  obtain ⟨f, rfl⟩ : ∃ g, f = g + 1 := ⟨f - 1, by omega⟩
  match h with
  | .nil => simp [dictS, dictLoop]
  | .cons k v es b bs hkne hv hes =>
    obtain ⟨c, r, hc, hne⟩ := entry_head k
    have hdl := decNat_pos k.length
    have e1 : decNat k.length ++ ascii ":" ++ k ++ b ++ bs ++ (101 : UInt8) :: rest =
      decNat k.length ++ ascii ":" ++ k ++ (b ++ (bs ++ (101 : UInt8) :: rest)) := by simp
    simp only [List.length_append] at hf
    have hks := decodeString_canon sp k (b ++ (bs ++ (101 : UInt8) :: rest)) (hk (k, v) (by simp))
    have ih1 := valueS_canon hv f l sp (bs ++ (101 : UInt8) :: rest) (by omega) (hl (k, v) (by simp)) (hn (k, v) (by simp))
    have ih2 := dictS_canon hes f l sp rest (mapSet acc k v) (by omega)
      (fun w hw => hk w (by simp [hw])) (fun w hw => hl w (by simp [hw])) (fun w hw => hn w (by simp [hw]))
    have hg := decodeValue_canon hv f sp (bs ++ (101 : UInt8) :: rest) (by omega) (hl (k, v) (by simp))
    rw [e1]
    rw [hc, List.cons_append] at hks ⊢
    rw [dictS, dictLoop_cons, if_neg hne, if_neg hne, hks]
    simp only [Res.ok_bind]
    rw [ih1]
    by_cases ha : AllInts DecInt v
    · rw [hg.1 ha]
      exact ih2
    · rw [hg.2 ha]; rfl
end

end Verif.Stack
