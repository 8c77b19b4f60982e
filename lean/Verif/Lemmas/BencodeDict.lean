import Verif.Lemmas.BencodeTotal
set_option autoImplicit false

namespace Verif.Bencode
open Spec

theorem Spec.Encodable.mono {P Q : Int → Prop} {v : Value} (h : Encodable P v) (hPQ : ∀ i, P i → Q i) :
    Encodable Q v := by
  induction h with
  | str s hs => exact .str s hs
  | int64 i hp => exact .int64 i (hPQ i hp)
  | intN i hp => exact .intN i (hPQ i hp)
  | list vs _ ih => exact .list vs ih
  | dict es hnd hk _ ih => exact .dict es hnd hk ih

theorem Spec.AllInts.mono {P Q : Int → Prop} {v : Value} (h : AllInts P v) (hPQ : ∀ i, P i → Q i) :
    AllInts Q v := by
  induction h with
  | str s => exact .str s
  | int64 i hp => exact .int64 i (hPQ i hp)
  | intN i hp => exact .intN i (hPQ i hp)
  | other => exact .other
  | list vs _ ih => exact .list vs ih
  | dict es _ ih => exact .dict es ih

theorem Spec.AllInts.and {P Q : Int → Prop} {v : Value} (h : AllInts P v) (h' : AllInts Q v) :
    AllInts (fun i => P i ∧ Q i) v := by
  induction h with
  | str s => exact .str s
  | int64 i hp => cases h' with | int64 _ h => exact .int64 i ⟨hp, h⟩
  | intN i hp => cases h' with | intN _ h => exact .intN i ⟨hp, h⟩
  | other => exact .other
  | list vs _ ih => exact .list vs (fun v hv => ih v hv (allInts_list.mp h' v hv))
  | dict es _ ih => exact .dict es (fun e he => ih e he (allInts_dict.mp h' e he))

theorem decodeString_infix {sp inp s r : Bytes} (h : decodeString sp inp = .ok (s, r)) : s <:+: inp ++ sp := by
  unfold decodeString at h
  split at h
  · cases h
  · rename_i c rr hdw
    obtain ⟨ds, rfl, -, -, -⟩ := split_digits hdw
    split at h
    · split at h
      · cases h
      · split at h
        · simp only [Res.ok.injEq, Prod.mk.injEq] at h
          obtain ⟨rfl, -⟩ := h
          refine (List.take_prefix _ _).isInfix.trans ?_
          exact ⟨ds ++ [c], [], by simp⟩
        · cases h
    · cases h

theorem decode_string_infix {f : Nat} {sp inp s r : Bytes} (h : decodeValue f sp inp = .ok (.str s, r)) :
    s <:+: inp ++ sp := by
  cases f with
  | zero => rw [decodeValue_zero] at h; cases h
  | succ f =>
    cases inp with
    | nil => rw [decodeValue_nil] at h; cases h
    | cons c rr =>
      rw [decodeValue_cons] at h
      split at h
      · obtain ⟨a, -, hb⟩ := Res.bind_eq_ok.mp h; simp at hb
      · split at h
        · obtain ⟨a, -, hb⟩ := Res.bind_eq_ok.mp h; simp at hb
        · split at h
          · obtain ⟨a, -, hb⟩ := Res.bind_eq_ok.mp h; simp at hb
          · obtain ⟨a, ha, hb⟩ := Res.bind_eq_ok.mp h
            simp only [Res.ok.injEq, Prod.mk.injEq, Value.str.injEq] at hb
            obtain ⟨rfl, rfl⟩ := hb
            exact decodeString_infix ha

theorem lookup_mapSet (es : Dict) (k k' : Bytes) (v : Value) :
    (mapSet es k v).lookup k' = if k' = k then some v else es.lookup k' := by
  induction es with
  | nil => 
    by_cases h : k' = k
    · subst h; simp [mapSet]
    · simp [mapSet, List.lookup, beq_false_of_ne h, h]
  | cons e es ih =>
    obtain ⟨k0, v0⟩ := e
    rw [mapSet]
    by_cases h0 : k0 = k
    · subst h0
      rw [if_pos rfl]
      by_cases h : k' = k0
      · subst h; simp
      · simp [List.lookup, beq_false_of_ne h, h]
    · rw [if_neg h0]
      by_cases h : k' = k0
      · subst h; simp [h0]
      · simp only [List.lookup, beq_false_of_ne h]
        exact ih

theorem lookup_some_iff {α : Type} {es : List (Bytes × α)} (hnd : (es.map Prod.fst).Nodup) {k : Bytes} {v : α} :
    es.lookup k = some v ↔ (k, v) ∈ es := by
  induction es with
  | nil => simp
  | cons e es ih =>
    obtain ⟨k0, v0⟩ := e
    simp only [List.map_cons, List.nodup_cons] at hnd
    by_cases h : k = k0
    · subst h
      simp only [List.lookup, beq_self_eq_true, Option.some.injEq, List.mem_cons, Prod.mk.injEq, true_and]
      constructor
      · rintro rfl; exact .inl rfl
      · rintro (h | h)
        · exact h.symm
        · exact absurd (List.mem_map_of_mem (f := Prod.fst) h) hnd.1
    · simp only [List.lookup, beq_false_of_ne h, List.mem_cons, Prod.mk.injEq, h, false_and, false_or]
      exact ih hnd.2

theorem lookup_none_iff {α : Type} {es : List (Bytes × α)} {k : Bytes} :
    es.lookup k = none ↔ k ∉ es.map Prod.fst := by
  induction es with
  | nil => simp
  | cons e es ih =>
    obtain ⟨k0, v0⟩ := e
    by_cases h : k = k0
    · subst h; simp
    · simp only [List.lookup, beq_false_of_ne h, List.map_cons, List.mem_cons, h, false_or]
      exact ih

theorem natDec_lt {n : Nat} (h : n < 10) : natDec n = [UInt8.ofNat (48 + n)] := by rw [natDec, if_pos h]

theorem mapSet_keys (es : Dict) (k : Bytes) (v : Value) :
    (mapSet es k v).map Prod.fst = if k ∈ es.map Prod.fst then es.map Prod.fst else es.map Prod.fst ++ [k] := by
  induction es with
  | nil => simp [mapSet]
  | cons e es ih =>
    obtain ⟨k0, v0⟩ := e
    rw [mapSet]
    by_cases h : k0 = k
    · subst h; simp
    · rw [if_neg h, List.map_cons, ih, List.map_cons]
      have : ¬ k = k0 := fun e => h e.symm
      by_cases hm : k ∈ es.map Prod.fst
      · rw [if_pos hm, if_pos (List.mem_cons_of_mem _ hm)]
      · rw [if_neg hm, if_neg (by simp only [List.mem_cons, this, false_or]; exact hm)]; rfl

theorem mapSet_nodup {es : Dict} (h : (es.map Prod.fst).Nodup) (k : Bytes) (v : Value) :
    ((mapSet es k v).map Prod.fst).Nodup := by
  rw [mapSet_keys]
  split
  · exact h
  · rename_i hm
    rw [List.nodup_append]
    refine ⟨h, by simp, ?_⟩
    intro a ha b hb
    rw [List.mem_singleton] at hb
    subst hb
    rintro rfl
    exact hm ha

theorem foldl_mapSet_nodup (es acc : Dict) (h : (acc.map Prod.fst).Nodup) :
    ((es.foldl (fun a e => mapSet a e.1 e.2) acc).map Prod.fst).Nodup := by
  induction es generalizing acc with
  | nil => exact h
  | cons e es ih => exact ih _ (mapSet_nodup h _ _)

theorem foldl_mapSet_lookup (es acc : Dict) (k : Bytes) :
    (es.foldl (fun a e => mapSet a e.1 e.2) acc).lookup k = (es.reverse.lookup k).or (acc.lookup k) := by
  induction es generalizing acc with
  | nil => simp
  | cons e es ih =>
    rw [List.foldl_cons, ih, lookup_mapSet, List.reverse_cons, List.lookup_append]
    obtain ⟨k0, v0⟩ := e
    by_cases h : k = k0
    · subst h; simp [List.lookup]
    · simp [List.lookup, beq_false_of_ne h, h]

theorem dictLoop_raw {es : Dict} {b : Bytes} (h : RawEntries es b) (f : Nat) (sp rest : Bytes)
    (acc : Dict) (hf : b.length + 1 < f) (hk : ∀ e ∈ es, e.1.length < 2 ^ 63) (hl : ∀ e ∈ es, LenOk e.2)
    (hi : ∀ e ∈ es, AllInts DecInt e.2) :
    dictLoop f sp (b ++ (101 : UInt8) :: rest) acc = .ok (es.foldl (fun a e => mapSet a e.1 e.2) acc, rest) := by
  induction h generalizing f acc with
  | nil =>
    obtain ⟨f, rfl⟩ : ∃ g, f = g + 1 := ⟨f - 1, by omega⟩
    rw [List.nil_append, dictLoop_cons, if_pos rfl]; rfl
  | cons k v es b bs hv _ ih =>
    obtain ⟨f, rfl⟩ : ∃ g, f = g + 1 := ⟨f - 1, by omega⟩
    obtain ⟨c, r, hc, hne⟩ := entry_head k
    have hdl := decNat_pos k.length
    have e1 : decNat k.length ++ ascii ":" ++ k ++ b ++ bs ++ (101 : UInt8) :: rest =
      decNat k.length ++ ascii ":" ++ k ++ (b ++ (bs ++ (101 : UInt8) :: rest)) := by simp
    simp only [List.length_append] at hf
    have hks := decodeString_canon sp k (b ++ (bs ++ (101 : UInt8) :: rest)) (hk (k, v) (by simp))
    have ih1 := (decodeValue_canon hv f sp (bs ++ (101 : UInt8) :: rest) (by omega) (hl (k, v) (by simp))).1 (hi (k, v) (by simp))
    have ih2 := ih f (mapSet acc k v) (by omega)
      (fun w hw => hk w (by simp [hw])) (fun w hw => hl w (by simp [hw])) (fun w hw => hi w (by simp [hw]))
    rw [e1]
    rw [hc, List.cons_append] at hks ⊢
    rw [dictLoop_cons, if_neg hne, hks]
    simp only [Res.ok_bind, ih1]
    exact ih2

theorem canon_lenOk {v : Value} {b : Bytes} (h : Canon v b) : b.length < 2 ^ 63 → LenOk v := by
  refine Canon.rec (motive_1 := fun v b _ => b.length < 2 ^ 63 → LenOk v)
    (motive_2 := fun vs b _ => b.length < 2 ^ 63 → ∀ v ∈ vs, LenOk v)
    (motive_3 := fun es b _ => b.length < 2 ^ 63 → ∀ e ∈ es, e.1.length < 2 ^ 63 ∧ LenOk e.2)
    ?_ ?_ ?_ ?_ ?_ ?_ ?_ ?_ h
  · intro s _ hb
    exact .str s (by simp at hb; omega)
  · intro i _; exact .int64 i
  · intro vs b _ ih hb
    exact .list vs (ih (by simp at hb; omega))
  · intro es b _ _ ih hb
    have := ih (by simp at hb; omega)
    exact .dict es (fun e he => (this e he).1) (fun e he => (this e he).2)
  · intro _ v hv; cases hv
  · intro v vs b bs _ _ ih1 ih2 hb w hw
    rw [List.length_append] at hb
    rcases List.mem_cons.mp hw with rfl | hw
    · exact ih1 (by omega)
    · exact ih2 (by omega) w hw
  · intro _ v hv; cases hv
  · intro k v es b bs _ _ _ ih1 ih2 hb w hw
    simp only [List.length_append] at hb
    rcases List.mem_cons.mp hw with rfl | hw
    · exact ⟨by show k.length < _; omega, ih1 (by omega)⟩
    · exact ih2 (by omega) w hw

theorem canon_nonstr_head {v : Value} {b : Bytes} (h : Canon v b) (hs : ∀ s, v ≠ .str s) :
    ∃ c r, b = c :: r ∧ (c = 100 ∨ c = 108 ∨ c = 105) := by
  cases h with
  | str s => exact absurd rfl (hs s)
  | int i => exact ⟨105, _, by simp [ascii]; rfl, by decide⟩
  | list vs b h => exact ⟨108, _, by simp [ascii]; rfl, by decide⟩
  | dict es b h hs => exact ⟨100, _, by simp [ascii]; rfl, by decide⟩

/-- a non-string result comes from a document starting with `d`, `l` or `i` -/
theorem decode_nonstr_head {data sp : Bytes} {v : Value} (h : Decode data sp = .ok v) (hs : ∀ s, v ≠ .str s) :
    ∃ c r, data = c :: r ∧ (c = 100 ∨ c = 108 ∨ c = 105) := by
  obtain ⟨r, hr⟩ := (decode_ok_iff _ _ _).mp h
  cases data with
  | nil => rw [decodeValue_nil] at hr; cases hr
  | cons c rr =>
    refine ⟨c, rr, rfl, ?_⟩
    rw [decodeValue_cons] at hr
    by_cases h1 : c = 100
    · exact .inl h1
    · by_cases h2 : c = 108
      · exact .inr (.inl h2)
      · by_cases h3 : c = 105
        · exact .inr (.inr h3)
        · rw [if_neg h1, if_neg h2, if_neg h3] at hr
          obtain ⟨a, -, hb⟩ := Res.bind_eq_ok.mp hr
          simp only [Res.ok.injEq, Prod.mk.injEq] at hb
          exact absurd hb.1.symm (hs _)

/-- a proper prefix of a canonical document is rejected (exact capacity) -/
theorem canon_prefix_rejected {v : Value} {b p q : Bytes} (h : Canon v b) (hl : LenOk v) (he : b = p ++ q) (hq : q ≠ [])
    (w : Value) : Decode p [] ≠ .ok w := by
  intro hd
  obtain ⟨r, hr⟩ := (decode_ok_iff _ _ _).mp hd
  obtain ⟨c, -, hpc, -, hx⟩ := (decode_ext _).1 _ _ _ hr
  have h1 := hx [] (r ++ q)
  rw [← List.append_assoc, ← hpc, ← he] at h1
  have hbig : 2 * p.length + 1 ≤ 2 * b.length + 1 := by rw [he]; simp; omega
  have h2 := decodeValue_fuel (by rw [h1]; simp) hbig
  rw [h1] at h2
  have hg := decodeValue_canon h (2 * b.length + 1) [] [] (by omega) hl
  rw [List.append_nil, h2] at hg
  by_cases ha : AllInts DecInt v
  · have := hg.1 ha
    simp only [Res.ok.injEq, Prod.mk.injEq, List.append_eq_nil_iff] at this
    exact hq this.2.2
  · have := hg.2 ha
    cases this

end Verif.Bencode
