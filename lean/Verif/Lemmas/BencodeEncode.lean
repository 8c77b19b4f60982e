import Verif.Lemmas.BencodeDecode
set_option autoImplicit false

namespace Verif.Bencode
open Spec

/-- compare entries by key -/
def keyLe {α : Type} (x y : Bytes × α) : Bool := bytesLe x.1 y.1

mutual
/-- deep canonical form: dictionaries sorted by key, all integers `int64` -/
def norm : Value → Value
  | .str s => .str s
  | .int64 i => .int64 i
  | .intN i => .int64 i
  | .list vs => .list (normList vs)
  | .dict es => .dict ((normEntries es).mergeSort keyLe)
  | .other => .other
def normList : List Value → List Value
  | [] => []
  | v :: vs => norm v :: normList vs
def normEntries : List (Bytes × Value) → List (Bytes × Value)
  | [] => []
  | (k, v) :: es => (k, norm v) :: normEntries es
end

theorem normList_eq (vs : List Value) : normList vs = vs.map norm := by
  induction vs with
  | nil => rfl
  | cons v vs ih => rw [normList, ih]; rfl
theorem normEntries_eq (es : Dict) : normEntries es = es.map (fun e => (e.1, norm e.2)) := by
  induction es with
  | nil => rfl
  | cons v vs ih => rw [normEntries, ih]; rfl
theorem encodeList_eq (vs : List Value) : encodeList vs = vs.map encode := by
  induction vs with
  | nil => rfl
  | cons v vs ih => rw [encodeList, ih]; rfl
theorem encodeEntries_eq (es : Dict) : encodeEntries es = es.map (fun e => (e.1, encode e.2)) := by
  induction es with
  | nil => rfl
  | cons v vs ih => rw [encodeEntries, ih]; rfl

theorem keyLe_trans {α : Type} (a b c : Bytes × α) : keyLe a b = true → keyLe b c = true → keyLe a c = true :=
  bytesLe_trans _ _ _
theorem keyLe_total {α : Type} (a b : Bytes × α) : (keyLe a b || keyLe b a) = true := bytesLe_total _ _

/-- sorted distinct keys are strictly increasing -/
theorem sorted_strict {α : Type} (es : List (Bytes × α)) (h : (es.map Prod.fst).Nodup) :
    ((es.mergeSort keyLe).map Prod.fst).Pairwise (· < ·) := by
  have h1 : ((es.mergeSort keyLe).map Prod.fst).Pairwise (fun a b => bytesLe a b = true) := by
    rw [List.pairwise_map]
    exact List.pairwise_mergeSort keyLe_trans keyLe_total es
  have h2 : ((es.mergeSort keyLe).map Prod.fst).Nodup :=
    (((List.mergeSort_perm es keyLe).map Prod.fst).nodup_iff).mpr h
  exact (h1.and h2).imp (fun h => lt_of_bytesLe_ne h.1 h.2)

theorem sorted_of_strict {α : Type} (es : List (Bytes × α)) (h : (es.map Prod.fst).Pairwise (· < ·)) :
    es.mergeSort keyLe = es := by
  apply List.mergeSort_of_pairwise
  rw [List.pairwise_map] at h
  exact h.imp (fun h => bytesLe_of_lt h)

theorem nodup_of_strict {l : List Bytes} (h : l.Pairwise (· < ·)) : l.Nodup :=
  h.imp (fun {a b} (h : a < b) (he : a = b) => List.lt_irrefl b (he ▸ h))

theorem nodup_key_unique {α : Type} {es : List (Bytes × α)} (h : (es.map Prod.fst).Nodup) {k : Bytes} {v w : α}
    (hv : (k, v) ∈ es) (hw : (k, w) ∈ es) : v = w := by
  induction es with
  | nil => cases hv
  | cons e es ih =>
    simp only [List.map_cons, List.nodup_cons] at h
    rcases List.mem_cons.mp hv with hv | hv <;> rcases List.mem_cons.mp hw with hw | hw
    · rw [← hv] at hw; exact (Prod.mk.inj hw).2.symm
    · exact absurd (List.mem_map_of_mem (f := Prod.fst) hw) (by rw [← hv] at h; exact h.1)
    · exact absurd (List.mem_map_of_mem (f := Prod.fst) hv) (by rw [← hw] at h; exact h.1)
    · exact ih h.2 hv hw

theorem nodup_of_keys {α : Type} {es : List (Bytes × α)} (h : (es.map Prod.fst).Nodup) : es.Nodup := by
  rw [List.Nodup, List.pairwise_map] at h
  exact h.imp (fun {a b} (h : a.1 ≠ b.1) (he : a = b) => h (he ▸ rfl))

/-! ### the two notions of value equality -/

theorem same_norm {v : Value} (h : IsMap v) : Same v (norm v) := by
  induction h with
  | str s => exact .str s
  | int64 i => exact .int64 i
  | intN i => exact .intL i
  | other => exact .other
  | list vs _ ih =>
    rw [norm, normList_eq]
    refine .list _ _ (by simp) ?_
    intro n v w hv hw
    rw [List.getElem?_map, hv] at hw
    simp only [Option.map_some, Option.some.injEq] at hw
    subst hw
    exact ih v (List.mem_of_getElem? hv)
  | dict es hnd _ ih =>
    rw [norm, normEntries_eq]
    have hm : ∀ k w, (k, w) ∈ (es.map fun e => (e.1, norm e.2)).mergeSort keyLe ↔ ∃ v, (k, v) ∈ es ∧ norm v = w := by
      intro k w
      rw [List.mem_mergeSort, List.mem_map]
      constructor
      · rintro ⟨⟨k', v⟩, h1, h2⟩
        simp only [Prod.mk.injEq] at h2
        obtain ⟨rfl, rfl⟩ := h2
        exact ⟨v, h1, rfl⟩
      · rintro ⟨v, h1, rfl⟩; exact ⟨(k, v), h1, rfl⟩
    refine .dict _ _ ?_ ?_
    · intro k
      simp only [List.mem_map, Prod.exists, exists_and_right, exists_eq_right]
      constructor
      · rintro ⟨v, hv⟩; exact ⟨norm v, (hm k _).mpr ⟨v, hv, rfl⟩⟩
      · rintro ⟨w, hw⟩; obtain ⟨v, hv, _⟩ := (hm k w).mp hw; exact ⟨v, hv⟩
    · intro k v w hv hw
      obtain ⟨v', hv', rfl⟩ := (hm k w).mp hw
      obtain rfl := nodup_key_unique hnd hv hv'
      exact ih (k, v) hv

theorem encodable_isMap {P : Int → Prop} {v : Value} (h : Encodable P v) : IsMap v := by
  induction h with
  | str s => exact .str s
  | int64 i => exact .int64 i
  | intN i => exact .intN i
  | list vs _ ih => exact .list vs ih
  | dict es hnd _ _ ih => exact .dict es hnd ih

theorem encodable_allInts {P : Int → Prop} {v : Value} (h : Encodable P v) : AllInts P v := by
  induction h with
  | str s => exact .str s
  | int64 i hp => exact .int64 i hp
  | intN i hp => exact .intN i hp
  | list vs _ ih => exact .list vs ih
  | dict es hnd _ _ ih => exact .dict es ih

theorem allInts_norm' {P : Int → Prop} {v : Value} (h : AllInts P v) : AllInts P (norm v) := by
  induction h with
  | str s => exact .str s
  | int64 i hp => exact .int64 i hp
  | intN i hp => exact .int64 i hp
  | other => exact .other
  | list vs _ ih => rw [norm, normList_eq]; exact .list _ (by simpa using ih)
  | dict es _ ih =>
    rw [norm, normEntries_eq]
    refine .dict _ ?_
    intro e he
    rw [List.mem_mergeSort, List.mem_map] at he
    obtain ⟨e', he', rfl⟩ := he
    exact ih e' he'

theorem lenOk_norm {v : Value} (h : LenOk v) : LenOk (norm v) := by
  induction h with
  | str s h => exact .str s h
  | int64 i => exact .int64 i
  | intN i => exact .int64 i
  | other => exact .other
  | list vs _ ih => rw [norm, normList_eq]; exact .list _ (by simpa using ih)
  | dict es hk _ ih =>
    rw [norm, normEntries_eq]
    refine .dict _ ?_ ?_ <;>
    · intro e he
      rw [List.mem_mergeSort, List.mem_map] at he
      obtain ⟨e', he', rfl⟩ := he
      first
      | exact ih e' he'
      | exact hk e' he'

/-- integer conditions are invariant under `Same` -/
theorem allInts_same {P : Int → Prop} {v w : Value} (h : Same v w) (hv : AllInts P v) : AllInts P w := by
  induction h with
  | str s => exact .str s
  | int64 i => exact hv
  | intN i => exact hv
  | intL i => cases hv with | intN _ h => exact .int64 _ h
  | intR i => cases hv with | int64 _ h => exact .intN _ h
  | other => exact .other
  | list vs ws hlen _ ih =>
    refine .list _ ?_
    intro w hw
    obtain ⟨n, hn, hg⟩ := List.getElem_of_mem hw
    have hn' : n < vs.length := by omega
    exact ih n vs[n] w (List.getElem?_eq_getElem hn') (by rw [List.getElem?_eq_getElem hn, hg])
      (allInts_list.mp hv _ (List.getElem_mem hn'))
  | dict es fs hk _ ih =>
    refine .dict _ ?_
    intro e he
    obtain ⟨⟨k, v⟩, hv', hk'⟩ := List.mem_map.mp ((hk e.1).mpr (List.mem_map_of_mem he))
    simp only at hk'; subst hk'
    exact ih e.1 v e.2 hv' he (allInts_dict.mp hv _ hv')

theorem same_symm {v w : Value} (h : Same v w) : Same w v := by
  induction h with
  | str s => exact .str s
  | int64 i => exact .int64 i
  | intN i => exact .intN i
  | intL i => exact .intR i
  | intR i => exact .intL i
  | other => exact .other
  | list vs ws hlen _ ih => exact .list _ _ hlen.symm (fun n v w hv hw => ih n w v hw hv)
  | dict es fs hk _ ih => exact .dict _ _ (fun k => (hk k).symm) (fun k v w hv hw => ih k w v hw hv)

theorem same_refl {v : Value} (h : IsMap v) : Same v v := by
  induction h with
  | str s => exact .str s
  | int64 i => exact .int64 i
  | intN i => exact .intN i
  | other => exact .other
  | list vs _ ih =>
    refine .list _ _ rfl (fun n v w hv hw => ?_)
    obtain rfl : v = w := Option.some.inj (hv.symm.trans hw)
    exact ih v (List.mem_of_getElem? hv)
  | dict es hnd _ ih =>
    refine .dict _ _ (fun _ => Iff.rfl) (fun k v w hv hw => ?_)
    obtain rfl := nodup_key_unique hnd hv hw
    exact ih (k, v) hv

theorem same_trans {u v w : Value} (h : Same u v) (h' : Same v w) : Same u w := by
  induction h generalizing w with
  | str s => exact h'
  | int64 i => exact h'
  | intN i => exact h'
  | intL i => cases h' with | int64 => exact .intL _ | intR => exact .intN _
  | intR i => cases h' with | intN => exact .intR _ | intL => exact .int64 _
  | other => exact h'
  | list vs ws hlen _ ih =>
    cases h' with
    | list _ xs hlen' h' =>
      refine .list _ _ (hlen.trans hlen') (fun n v x hv hx => ?_)
      have hn : n < ws.length := by have := (List.getElem?_eq_some_iff.mp hv).1; omega
      exact ih n v ws[n] hv (List.getElem?_eq_getElem hn) (h' n _ _ (List.getElem?_eq_getElem hn) hx)
  | dict es fs hk _ ih =>
    cases h' with
    | dict _ gs hk' h' =>
      refine .dict _ _ (fun k => (hk k).trans (hk' k)) (fun k v x hv hx => ?_)
      obtain ⟨⟨k', w⟩, hw, hkk⟩ := List.mem_map.mp ((hk k).mp (List.mem_map_of_mem hv))
      simp only at hkk; subst hkk
      exact ih k' v w hv hw (h' k' w x hw hx)

/-! ### the encoder produces canonical documents -/

theorem encodeString_ok (s : Bytes) (h : s ≠ []) : encodeString s = (decNat s.length ++ ascii ":" ++ s, none) := by
  rw [encodeString, if_neg (by simpa using h), decNat_eq]; simp [ascii]

theorem seqEnc_pair (a b : Bytes) : seqEnc [(a, none), (b, none)] = (a ++ b, none) := by
  simp [seqEnc]

theorem seqEnc_canonSeq (vs : List Value)
    (h : ∀ v ∈ vs, ∃ b, encode v = (b, none) ∧ Canon (norm v) b) :
    ∃ b, seqEnc (vs.map encode) = (b, none) ∧ CanonSeq (vs.map norm) b := by
  induction vs with
  | nil => exact ⟨[], rfl, .nil⟩
  | cons v vs ih =>
    obtain ⟨b, hb, hc⟩ := h v (by simp)
    obtain ⟨bs, hbs, hcs⟩ := ih (fun w hw => h w (by simp [hw]))
    exact ⟨b ++ bs, by rw [List.map_cons, hb, seqEnc, hbs], .cons _ _ _ _ hc hcs⟩

theorem seqEnc_canonEntries (es : Dict) (hk : ∀ e ∈ es, e.1 ≠ [])
    (h : ∀ e ∈ es, ∃ b, encode e.2 = (b, none) ∧ Canon (norm e.2) b) :
    ∃ b, seqEnc (es.map fun e => seqEnc [encodeString e.1, encode e.2]) = (b, none) ∧
      CanonEntries (es.map fun e => (e.1, norm e.2)) b := by
  induction es with
  | nil => exact ⟨[], rfl, .nil⟩
  | cons e es ih =>
    obtain ⟨b, hb, hc⟩ := h e (by simp)
    obtain ⟨bs, hbs, hcs⟩ := ih (fun w hw => hk w (by simp [hw])) (fun w hw => h w (by simp [hw]))
    refine ⟨_, ?_, .cons _ _ _ _ _ (hk e (by simp)) hc hcs⟩
    rw [List.map_cons, encodeString_ok _ (hk e (by simp)), hb, seqEnc_pair, seqEnc, hbs]

theorem encodeSorted_eq (es : Dict) :
    encodeSorted (encodeEntries es) =
      seqEnc ((es.mergeSort keyLe).map fun e => seqEnc [encodeString e.1, encode e.2]) := by
  have h := List.map_mergeSort (r := keyLe) (s := keyLe) (f := fun e : Bytes × Value => (e.1, encode e.2)) (l := es)
    (fun a _ b _ => rfl)
  unfold encodeSorted
  rw [encodeEntries_eq]
  show seqEnc (((es.map fun e => (e.1, encode e.2)).mergeSort keyLe).map _) = _
  rw [← h, List.map_map]; rfl

theorem encode_canon {P : Int → Prop} {v : Value} (h : Encodable P v) :
    ∃ b, encode v = (b, none) ∧ Canon (norm v) b := by
  induction h with
  | str s hs => exact ⟨_, by rw [encode]; exact encodeString_ok s hs, .str s hs⟩
  | int64 i => exact ⟨_, by rw [encode, encodeInt, ← decInt_eq]; rfl, .int i⟩
  | intN i => exact ⟨_, by rw [encode, encodeInt, ← decInt_eq]; rfl, .int i⟩
  | list vs _ ih =>
    obtain ⟨b, hb, hc⟩ := seqEnc_canonSeq vs ih
    exact ⟨ascii "l" ++ b ++ ascii "e", by rw [encode, encodeList_eq, hb]; rfl, by rw [norm, normList_eq]; exact .list _ _ hc⟩
  | dict es hnd hk _ ih =>
    obtain ⟨b, hb, hc⟩ := seqEnc_canonEntries (es.mergeSort keyLe)
      (fun e he => hk e (List.mem_mergeSort.mp he)) (fun e he => ih e (List.mem_mergeSort.mp he))
    have hs : (es.mergeSort keyLe).map (fun e => (e.1, norm e.2)) = (es.map fun e => (e.1, norm e.2)).mergeSort keyLe :=
      List.map_mergeSort (fun a _ b _ => rfl)
    refine ⟨ascii "d" ++ b ++ ascii "e", by rw [encode, encodeSorted_eq, hb]; rfl, ?_⟩
    rw [norm, normEntries_eq]
    refine .dict _ _ (by rw [← hs]; exact hc) (sorted_strict _ ?_)
    rw [List.map_map]; exact hnd

theorem seqEnc_none {l : List Enc} {b : Bytes} (h : seqEnc l = (b, none)) : ∀ e ∈ l, e.2 = none := by
  induction l generalizing b with
  | nil => intro e he; cases he
  | cons e l ih =>
    obtain ⟨b0, o⟩ := e
    cases o with
    | some x => rw [seqEnc] at h; cases h
    | none =>
      rw [seqEnc] at h
      rcases hs : seqEnc l with ⟨b', o'⟩
      rw [hs] at h
      simp only [Prod.mk.injEq] at h
      obtain ⟨_, rfl⟩ := h
      intro e he
      rcases List.mem_cons.mp he with rfl | he
      · rfl
      · exact ih hs e he

theorem wrapEnc_none {c : UInt8} {e : Enc} : (wrapEnc c e).2 = none ↔ e.2 = none := by
  obtain ⟨b, o⟩ := e
  cases o <;> simp [wrapEnc]

theorem encodable_of_encode {v : Value} (hm : IsMap v) (h : (encode v).2 = none) : Encodable (fun _ => True) v := by
  induction hm with
  | str s =>
    refine .str s ?_
    rintro rfl
    simp [encode, encodeString] at h
  | int64 i => exact .int64 i trivial
  | intN i => exact .intN i trivial
  | other => simp [encode] at h
  | list vs _ ih =>
    refine .list vs (fun v hv => ih v hv ?_)
    rw [encode, wrapEnc_none, encodeList_eq] at h
    exact seqEnc_none (b := (seqEnc (vs.map encode)).1) (Prod.ext rfl h) _ (List.mem_map_of_mem hv)
  | dict es hnd _ ih =>
    rw [encode, wrapEnc_none, encodeSorted_eq] at h
    have hall : ∀ e ∈ es, (encodeString e.1).2 = none ∧ (encode e.2).2 = none := by
      intro e he
      have h1 := seqEnc_none (Prod.ext rfl h) (seqEnc [encodeString e.1, encode e.2])
        (List.mem_map_of_mem (f := fun e : Bytes × Value => seqEnc [encodeString e.1, encode e.2])
          (List.mem_mergeSort.mpr he))
      have h2 := seqEnc_none (l := [encodeString e.1, encode e.2]) (Prod.ext rfl h1)
      exact ⟨h2 _ (by simp), h2 _ (by simp)⟩
    refine .dict es hnd (fun e he hnil => ?_) (fun e he => ih e he (hall e he).2)
    have := (hall e he).1
    rw [hnil] at this
    simp [encodeString] at this

/-! ### canonical documents encode to themselves -/
mutual
theorem encode_of_canon {v : Value} {b : Bytes} (h : Canon v b) : encode v = (b, none) := by
  match h with
  | .str s hs => rw [encode]; exact encodeString_ok s hs
  | .int i => rw [encode, encodeInt, ← decInt_eq]; rfl
  | .list vs b hs => rw [encode, encodeList_eq, seqEnc_of_canon hs]; rfl
  | .dict es b hs hsort =>
    rw [encode, encodeSorted_eq, sorted_of_strict es hsort, seqEnc_of_canonEntries hs]; rfl
theorem seqEnc_of_canon {vs : List Value} {b : Bytes} (h : CanonSeq vs b) : seqEnc (vs.map encode) = (b, none) := by
  match h with
  | .nil => rfl
  | .cons v vs b bs hv hvs => rw [List.map_cons, encode_of_canon hv, seqEnc, seqEnc_of_canon hvs]
theorem seqEnc_of_canonEntries {es : Dict} {b : Bytes} (h : CanonEntries es b) :
    seqEnc (es.map fun e => seqEnc [encodeString e.1, encode e.2]) = (b, none) := by
  match h with
  | .nil => rfl
  | .cons k v es b bs hk hv hes =>
    rw [List.map_cons, encodeString_ok _ hk, encode_of_canon hv, seqEnc_pair, seqEnc, seqEnc_of_canonEntries hes]
end

/-! ### map order -/

theorem encode_same {v w : Value} (h : Same v w) (hv : IsMap v) (hw : IsMap w) : encode v = encode w := by
  induction h with
  | str | int64 | intN | other => rfl
  | intL | intR => rw [encode, encode]
  | list vs ws hlen _ ih =>
    cases hv with | list _ hv => ?_
    cases hw with | list _ hw => ?_
    rw [encode, encode, encodeList_eq, encodeList_eq]
    congr 2
    apply List.ext_getElem
    · simpa using hlen
    · intro n h1 h2
      simp only [List.length_map] at h1 h2
      rw [List.getElem_map, List.getElem_map]
      exact ih n _ _ (List.getElem?_eq_getElem h1) (List.getElem?_eq_getElem h2)
        (hv _ (List.getElem_mem h1)) (hw _ (List.getElem_mem h2))
  | dict es fs hk _ ih =>
    cases hv with | dict _ hnd hv => ?_
    cases hw with | dict _ hnd' hw => ?_
    rw [encode, encode]
    congr 1
    unfold encodeSorted
    congr 2
    rw [encodeEntries_eq, encodeEntries_eq]
    have n1 : ((es.map fun e => (e.1, encode e.2)).map Prod.fst).Nodup := by rw [List.map_map]; exact hnd
    have n2 : ((fs.map fun e => (e.1, encode e.2)).map Prod.fst).Nodup := by rw [List.map_map]; exact hnd'
    have hperm : (es.map fun e => (e.1, encode e.2)).Perm (fs.map fun e => (e.1, encode e.2)) := by
      rw [List.perm_ext_iff_of_nodup (nodup_of_keys n1) (nodup_of_keys n2)]
      intro p
      simp only [List.mem_map]
      constructor
      · rintro ⟨e, he, rfl⟩
        obtain ⟨f, hf, hke⟩ := List.mem_map.mp ((hk e.1).mp (List.mem_map_of_mem he))
        refine ⟨f, hf, ?_⟩
        rw [hke, ih e.1 e.2 f.2 he (hke ▸ hf) (hv e he) (hw f hf)]
      · rintro ⟨e, he, rfl⟩
        obtain ⟨f, hf, hke⟩ := List.mem_map.mp ((hk e.1).mpr (List.mem_map_of_mem he))
        refine ⟨f, hf, ?_⟩
        rw [hke, ih e.1 f.2 e.2 (hke ▸ hf) he (hv f hf) (hw e he)]
    refine List.Perm.eq_of_pairwise (le := fun x y => keyLe x y = true) ?_
      (List.pairwise_mergeSort keyLe_trans keyLe_total _) (List.pairwise_mergeSort keyLe_trans keyLe_total _)
      ((List.mergeSort_perm _ _).trans (hperm.trans (List.mergeSort_perm _ _).symm))
    intro a b ha hb h1 h2
    have hab : a.1 = b.1 := bytesLe_antisymm _ _ h1 h2
    have ha' := hperm.mem_iff.mp (List.mem_mergeSort.mp ha)
    have hb' := List.mem_mergeSort.mp hb
    obtain ⟨k, x⟩ := a
    obtain ⟨k', y⟩ := b
    simp only at hab; subst hab
    rw [nodup_key_unique n2 ha' hb']

/-! ### unique readability -/

theorem decNat_split {m n : Nat} {r r' : Bytes} {c c' : UInt8} (hc : isDigit c = false) (hc' : isDigit c' = false)
    (h : decNat m ++ c :: r = decNat n ++ c' :: r') : m = n ∧ r = r' := by
  rw [decNat_eq, decNat_eq] at h
  have h1 := congrArg (List.takeWhile isDigit) h
  have h2 := congrArg (List.dropWhile isDigit) h
  rw [takeWhile_digits _ _ _ (natDec_digits _) hc, takeWhile_digits _ _ _ (natDec_digits _) hc'] at h1
  rw [dropWhile_digits _ _ _ (natDec_digits _) hc, dropWhile_digits _ _ _ (natDec_digits _) hc'] at h2
  refine ⟨?_, (List.cons.inj h2).2⟩
  have := congrArg digitsVal h1
  rwa [digitsVal_natDec, digitsVal_natDec] at this

theorem string_split {s t r r' : Bytes}
    (h : decNat s.length ++ ascii ":" ++ s ++ r = decNat t.length ++ ascii ":" ++ t ++ r') : s = t ∧ r = r' := by
  have h' : decNat s.length ++ (58 : UInt8) :: (s ++ r) = decNat t.length ++ (58 : UInt8) :: (t ++ r') := by
    simpa [ascii] using h
  obtain ⟨hl, hr⟩ := decNat_split isDigit_colon isDigit_colon h'
  exact List.append_inj hr hl

theorem int_split {i j : Int} {r r' : Bytes}
    (h : decInt i ++ (101 : UInt8) :: r = decInt j ++ (101 : UInt8) :: r') : i = j ∧ r = r' := by
  rw [decInt_eq, decInt_eq] at h
  unfold intDec at h
  obtain ⟨c, q, hc, hd⟩ := natDec_cons i.natAbs
  obtain ⟨c', q', hc', hd'⟩ := natDec_cons j.natAbs
  have n1 := (isDigit_lit hd).2.2.2.2.1
  have n2 := (isDigit_lit hd').2.2.2.2.1
  by_cases hi : i < 0 <;> by_cases hj : j < 0 <;> simp only [hi, hj, if_true, if_false] at h
  · simp only [List.cons_append, List.cons.injEq, true_and] at h
    rw [← decNat_eq, ← decNat_eq] at h
    obtain ⟨h1, h2⟩ := decNat_split isDigit_e isDigit_e h
    exact ⟨by omega, h2⟩
  · rw [hc', List.cons_append, List.cons_append, List.cons.injEq] at h
    exact absurd h.1.symm n2
  · rw [hc, List.cons_append, List.cons_append, List.cons.injEq] at h
    exact absurd h.1 n1
  · rw [← decNat_eq, ← decNat_eq] at h
    obtain ⟨h1, h2⟩ := decNat_split isDigit_e isDigit_e h
    exact ⟨by omega, h2⟩

theorem decNat_head (n : Nat) : ∃ c r, decNat n = c :: r ∧ isDigit c = true := by
  rw [decNat_eq]; exact natDec_cons n

theorem canonEntries_inv {es : Dict} {b : Bytes} (h : CanonEntries es b) :
    (es = [] ∧ b = []) ∨ ∃ k v es' b1 bs, es = (k, v) :: es' ∧ b = decNat k.length ++ ascii ":" ++ k ++ b1 ++ bs ∧
      Canon v b1 ∧ CanonEntries es' bs := by
  cases h with
  | nil => exact .inl ⟨rfl, rfl⟩
  | cons k v es b bs hk hv hes => exact .inr ⟨k, v, es, b, bs, rfl, rfl, hv, hes⟩

mutual
theorem canon_unique {v w : Value} {b b' r r' : Bytes} (h : Canon v b) (h' : Canon w b') (he : b ++ r = b' ++ r') :
    v = w ∧ b = b' ∧ r = r' := by
  match h, h' with
  | .str s _, .str t _ =>
    obtain ⟨rfl, rfl⟩ := string_split he
    exact ⟨rfl, rfl, rfl⟩
  | .int i, .int j =>
    obtain ⟨rfl, rfl⟩ := int_split (i := i) (j := j) (r := r) (r' := r') (by simpa [ascii] using he)
    exact ⟨rfl, rfl, rfl⟩
  | .list vs b hs, .list ws b' hs' =>
    obtain ⟨rfl, rfl, rfl⟩ := canonSeq_unique hs hs' (r := r) (r' := r') (by simpa [ascii] using he)
    exact ⟨rfl, rfl, rfl⟩
  | .dict es b hs _, .dict fs b' hs' _ =>
    obtain ⟨rfl, rfl, rfl⟩ := canonEntries_unique hs hs' (r := r) (r' := r') (by simpa [ascii] using he)
    exact ⟨rfl, rfl, rfl⟩
  | .str s _, .int j | .str s _, .list _ _ _ | .str s _, .dict _ _ _ _ =>
    obtain ⟨c, q, hc, hd⟩ := decNat_head s.length
    have := isDigit_lit hd
    rw [hc] at he; simp [ascii] at he; exact absurd he.1 (by simp [this])
  | .int j, .str s _ | .list _ _ _, .str s _ | .dict _ _ _ _, .str s _ =>
    obtain ⟨c, q, hc, hd⟩ := decNat_head s.length
    have := isDigit_lit hd
    rw [hc] at he; simp [ascii] at he; exact absurd he.1.symm (by simp [this])
  | .int _, .list _ _ _ | .int _, .dict _ _ _ _ | .list _ _ _, .int _ | .list _ _ _, .dict _ _ _ _
  | .dict _ _ _ _, .int _ | .dict _ _ _ _, .list _ _ _ => simp [ascii] at he
theorem canonSeq_unique {vs ws : List Value} {b b' r r' : Bytes} (h : CanonSeq vs b) (h' : CanonSeq ws b')
    (he : b ++ (101 : UInt8) :: r = b' ++ (101 : UInt8) :: r') : vs = ws ∧ b = b' ∧ r = r' := by
  match h, h' with
  | .nil, .nil => exact ⟨rfl, rfl, by simpa using he⟩
  | .nil, .cons v vs b bs hv hvs =>
    obtain ⟨c, q, hc, hne⟩ := canon_head hv
    rw [hc] at he; simp at he; exact absurd he.1.symm hne
  | .cons v vs b bs hv hvs, .nil =>
    obtain ⟨c, q, hc, hne⟩ := canon_head hv
    rw [hc] at he; simp at he; exact absurd he.1 hne
  | .cons v vs b bs hv hvs, .cons w ws b' bs' hw hws =>
    rw [List.append_assoc, List.append_assoc] at he
    obtain ⟨rfl, rfl, he2⟩ := canon_unique hv hw he
    obtain ⟨rfl, rfl, rfl⟩ := canonSeq_unique hvs hws he2
    exact ⟨rfl, rfl, rfl⟩
theorem canonEntries_unique {vs ws : Dict} {b b' r r' : Bytes} (h : CanonEntries vs b) (h' : CanonEntries ws b')
    (he : b ++ (101 : UInt8) :: r = b' ++ (101 : UInt8) :: r') : vs = ws ∧ b = b' ∧ r = r' := by
  match h with
  | .nil =>
    rcases canonEntries_inv h' with ⟨rfl, rfl⟩ | ⟨k, v, vs, b, bs, rfl, rfl, hv, hvs⟩
    · exact ⟨rfl, rfl, by simpa using he⟩
    · obtain ⟨c, q, hc, hne⟩ := entry_head k
      rw [hc] at he; simp at he; exact absurd he.1.symm hne
  | .cons k v vs b bs _ hv hvs =>
    rcases canonEntries_inv h' with ⟨rfl, rfl⟩ | ⟨k', w, ws, b', bs', rfl, rfl, hw, hws⟩
    · obtain ⟨c, q, hc, hne⟩ := entry_head k
      rw [hc] at he; simp at he; exact absurd he.1 hne
    · have he' : decNat k.length ++ ascii ":" ++ k ++ (b ++ (bs ++ (101 : UInt8) :: r)) =
        decNat k'.length ++ ascii ":" ++ k' ++ (b' ++ (bs' ++ (101 : UInt8) :: r')) := by simpa using he
      obtain ⟨rfl, he1⟩ := string_split he'
      obtain ⟨rfl, rfl, he2⟩ := canon_unique hv hw he1
      obtain ⟨rfl, rfl, rfl⟩ := canonEntries_unique hvs hws he2
      exact ⟨rfl, rfl, rfl⟩
end

end Verif.Bencode
