import Verif.Spec.EncErr
import Verif.Lemmas.BencodeEncode
/-
Lemmas for C113 and C114.
-/
set_option autoImplicit false

namespace Verif.EncErr
open Verif.Bencode Spec

theorem encodeListT_eq (vs : List TValue) : encodeListT vs = vs.map encodeT := by
  induction vs with
  | nil => rfl
  | cons v vs ih => rw [encodeListT, ih]; rfl
theorem encodeEntriesT_eq (es : List (Bytes × TValue)) : encodeEntriesT es = es.map (fun e => (e.1, encodeT e.2)) := by
  induction es with
  | nil => rfl
  | cons v vs ih => rw [encodeEntriesT, ih]; rfl

/-- one key with its value -/
def entryT (e : Bytes × TValue) : EncT := seqT [encodeStringT e.1, encodeT e.2]

theorem encodeSortedT_eq (es : List (Bytes × TValue)) : encodeSortedT (encodeEntriesT es) = seqT ((es.mergeSort keyLe).map entryT) := by
  have h := List.map_mergeSort (r := keyLe) (s := keyLe) (f := fun e : Bytes × TValue => (e.1, encodeT e.2)) (l := es) (fun a _ b _ => rfl)
  unfold encodeSortedT
  rw [encodeEntriesT_eq]
  show seqT (((es.map fun e => (e.1, encodeT e.2)).mergeSort keyLe).map _) = _
  rw [← h, List.map_map]; rfl

theorem seqT_none {l : List EncT} : (seqT l).2 = none ↔ ∀ x ∈ l, x.2 = none := by
  induction l with
  | nil => simp [seqT]
  | cons x l ih =>
    obtain ⟨b, o⟩ := x
    cases o with
    | some e => simp [seqT]
    | none => simp only [seqT, ih, List.mem_cons, forall_eq_or_imp, true_and]

theorem seqT_some {l : List EncT} {e : EncErr} : (seqT l).2 = some e ↔ ∃ pre x post, l = pre ++ x :: post ∧ (∀ y ∈ pre, y.2 = none) ∧ x.2 = some e := by
  induction l with
  | nil => simp [seqT]
  | cons x l ih =>
    obtain ⟨b, o⟩ := x
    cases o with
    | some e' =>
      simp only [seqT]
      constructor
      · intro h
        exact ⟨[], _, l, rfl, (by simp), h⟩
      · rintro ⟨pre, y, post, h1, h2, h3⟩
        cases pre with
        | nil => cases h1; exact h3
        | cons p pre =>
          have := h2 p (by simp)
          rw [List.cons_append, List.cons.injEq] at h1
          rw [← h1.1] at this
          cases this
    | none =>
      simp only [seqT, ih]
      constructor
      · rintro ⟨pre, y, post, rfl, h2, h3⟩
        refine ⟨(b, none) :: pre, y, post, rfl, ?_, h3⟩
        intro z hz
        rcases List.mem_cons.mp hz with rfl | hz
        · rfl
        · exact h2 z hz
      · rintro ⟨pre, y, post, h1, h2, h3⟩
        cases pre with
        | nil => cases h1; cases h3
        | cons p pre =>
          rw [List.cons_append, List.cons.injEq] at h1
          exact ⟨pre, y, post, h1.2, fun z hz => h2 z (by simp [hz]), h3⟩

theorem wrapT_snd (c : UInt8) (x : EncT) : (wrapT c x).2 = x.2 := by
  obtain ⟨b, o⟩ := x
  cases o <;> rfl

theorem string_none (s : Bytes) : (encodeStringT s).2 = none ↔ s ≠ [] := by
  unfold encodeStringT
  cases s <;> simp

theorem entryT_none (e : Bytes × TValue) : (entryT e).2 = none ↔ e.1 ≠ [] ∧ (encodeT e.2).2 = none := by
  unfold entryT
  rw [seqT_none]
  simp only [List.mem_cons, List.not_mem_nil, or_false, forall_eq_or_imp, forall_eq, string_none]

theorem entryT_some (e : Bytes × TValue) (x : EncErr) : (entryT e).2 = some x ↔ (e.1 = [] ∧ x = .empty) ∨ (e.1 ≠ [] ∧ (encodeT e.2).2 = some x) := by
  obtain ⟨k, v⟩ := e
  unfold entryT
  cases k with
  | nil =>
    have : encodeStringT [] = ([], some .empty) := rfl
    simp only [this, seqT, Option.some.injEq, true_and, ne_eq, not_true_eq_false, false_and, or_false]
    exact eq_comm
  | cons c k =>
    have : encodeStringT (c :: k) = (natDec (c :: k).length ++ [58] ++ (c :: k), none) := rfl
    simp only [this, seqT, reduceCtorEq, false_and, ne_eq, not_false_eq_true, true_and, false_or]
    cases h : encodeT v with
    | mk b o => cases o <;> simp [seqT]

theorem mem_sorted {α : Type} {es : List (Bytes × α)} {e : Bytes × α} : e ∈ es.mergeSort keyLe ↔ e ∈ es := List.mem_mergeSort

/-- the sorted entries around one of them -/
theorem around {α : Type} {es pre post : List (Bytes × α)} {e : Bytes × α} (hnd : (es.map Prod.fst).Nodup) (h : es.mergeSort keyLe = pre ++ e :: post) :
    (∀ x ∈ pre, x.1 < e.1) ∧ ∀ x ∈ post, e.1 < x.1 := by
  have hs := sorted_strict es hnd
  rw [h, List.map_append, List.map_cons, List.pairwise_append] at hs
  obtain ⟨-, h2, h3⟩ := hs
  rw [List.pairwise_cons] at h2
  exact ⟨fun x hx => h3 _ (List.mem_map_of_mem hx) _ (by simp), fun x hx => h2.1 _ (List.mem_map_of_mem hx)⟩

theorem not_lt_nil (k : Bytes) : ¬ k < [] := by
  intro h
  cases k with
  | nil => exact List.lt_irrefl _ h
  | cons c k => exact absurd h (by simp)

theorem fine_iff {v : TValue} (hm : IsMap v) : (encodeT v).2 = none ↔ Fine v := by
  induction hm with
  | str s =>
    rw [encodeT, string_none]
    exact ⟨fun h => .str s h, fun h => by cases h; assumption⟩
  | int64 i => exact ⟨fun _ => .int64 i, fun _ => rfl⟩
  | intN i => exact ⟨fun _ => .intN i, fun _ => rfl⟩
  | other ty => exact ⟨fun h => by simp [encodeT] at h, fun h => by cases h⟩
  | list vs _ ih =>
    rw [encodeT, wrapT_snd, seqT_none, encodeListT_eq]
    constructor
    · intro h
      exact .list vs fun v hv => (ih v hv).mp (h _ (List.mem_map_of_mem hv))
    · intro h x hx
      cases h with
      | list _ h =>
        obtain ⟨v, hv, rfl⟩ := List.mem_map.mp hx
        exact (ih v hv).mpr (h v hv)
  | dict es hnd _ ih =>
    rw [encodeT, wrapT_snd, encodeSortedT_eq, seqT_none]
    constructor
    · intro h
      have h' : ∀ e ∈ es, (entryT e).2 = none := fun e he => h _ (List.mem_map_of_mem (mem_sorted.mpr he))
      exact .dict es (fun e he => ((entryT_none e).mp (h' e he)).1) fun e he => (ih e he).mp ((entryT_none e).mp (h' e he)).2
    · intro h x hx
      obtain ⟨e, he, rfl⟩ := List.mem_map.mp hx
      cases h with
      | dict _ h1 h2 =>
        have he := mem_sorted.mp he
        exact (entryT_none e).mpr ⟨h1 e he, (ih e he).mpr (h2 e he)⟩

theorem fault_of {v : TValue} (hm : IsMap v) : ∀ e, (encodeT v).2 = some e → Fault v e.text := by
  induction hm with
  | str s =>
    intro e h
    cases s with
    | nil =>
      simp only [encodeT, encodeStringT, List.length_nil, if_true, Option.some.injEq] at h
      subst h
      exact .str
    | cons c s => rw [encodeT, (string_none _).mpr (by simp)] at h; cases h
  | int64 i => intro e h; simp [encodeT] at h
  | intN i => intro e h; simp [encodeT] at h
  | other ty =>
    intro e h
    simp only [encodeT, Option.some.injEq] at h
    subst h
    have := Fault.other ty
    rwa [show ascii "encoder error: unsupported bencoding type [" = ascii "encoder error: " ++ ascii "unsupported bencoding type [" from rfl, List.append_assoc,
      List.append_assoc, ← List.append_assoc (ascii "unsupported bencoding type [")] at this
  | list vs hvs ih =>
    intro e h
    rw [encodeT, wrapT_snd, encodeListT_eq, seqT_some] at h
    obtain ⟨pre, x, post, h1, h2, h3⟩ := h
    obtain ⟨p, q, rfl, rfl, hq⟩ := List.map_eq_append_iff.mp h1
    obtain ⟨v, r, rfl, rfl, rfl⟩ := List.map_eq_cons_iff.mp hq
    refine .list p v r _ ?_ (ih v (by simp) e h3)
    intro w hw
    exact (fine_iff (hvs w (by simp [hw]))).mp (h2 _ (List.mem_map_of_mem hw))
  | dict es hnd hvs ih =>
    intro x h
    rw [encodeT, wrapT_snd, encodeSortedT_eq, seqT_some] at h
    obtain ⟨pre, y, post, h1, h2, h3⟩ := h
    obtain ⟨p, q, hpq, rfl, hq⟩ := List.map_eq_append_iff.mp h1
    obtain ⟨e, r, rfl, rfl, rfl⟩ := List.map_eq_cons_iff.mp hq
    obtain ⟨a1, a2⟩ := around hnd hpq
    have hmem : ∀ z, z ∈ es ↔ z ∈ p ∨ z = e ∨ z ∈ r := by
      intro z
      rw [← mem_sorted, hpq]
      simp
    have hpre : ∀ z ∈ p, z.1 ≠ [] ∧ (encodeT z.2).2 = none := fun z hz => (entryT_none z).mp (h2 _ (List.mem_map_of_mem hz))
    have hin : e ∈ es := (hmem e).mpr (by simp)
    rcases (entryT_some e x).mp h3 with ⟨hk, rfl⟩ | ⟨hk, he⟩
    · obtain ⟨k, v⟩ := e
      simp only at hk
      subst hk
      exact .key es v hin
    · refine .value es e.1 e.2 _ ?_ hin ?_ (ih e hin x he)
      · intro z hz
        rcases (hmem z).mp hz with hz | rfl | hz
        · exact (hpre z hz).1
        · exact hk
        · intro h0
          have := a2 z hz
          rw [h0] at this
          exact not_lt_nil _ this
      · intro z hz hlt
        rcases (hmem z).mp hz with hz' | rfl | hz'
        · exact (fine_iff (hvs z hz)).mp (hpre z hz').2
        · exact absurd hlt (List.lt_irrefl _)
        · exact absurd (List.lt_trans hlt (a2 z hz')) (List.lt_irrefl _)

theorem of_fault {v : TValue} {t : Bytes} (h : Fault v t) : IsMap v → ∃ e, (encodeT v).2 = some e ∧ e.text = t := by
  induction h with
  | str => exact fun _ => ⟨.empty, rfl, rfl⟩
  | other ty =>
    refine fun _ => ⟨.unsupported ty, rfl, ?_⟩
    rw [show ascii "encoder error: unsupported bencoding type [" = ascii "encoder error: " ++ ascii "unsupported bencoding type [" from rfl, List.append_assoc,
      List.append_assoc, ← List.append_assoc (ascii "unsupported bencoding type [")]
    rfl
  | list pre v post t hp _ ih =>
    intro hm
    cases hm with
    | list _ hm =>
      obtain ⟨e, h1, h2⟩ := ih (hm v (by simp))
      refine ⟨e, ?_, h2⟩
      rw [encodeT, wrapT_snd, encodeListT_eq, seqT_some]
      refine ⟨pre.map encodeT, encodeT v, post.map encodeT, by simp, ?_, h1⟩
      intro y hy
      obtain ⟨w, hw, rfl⟩ := List.mem_map.mp hy
      exact (fine_iff (hm w (by simp [hw]))).mpr (hp w hw)
  | key es v hin =>
    intro hm
    cases hm with
    | dict _ hnd hm =>
      refine ⟨.empty, ?_, rfl⟩
      rw [encodeT, wrapT_snd, encodeSortedT_eq, seqT_some]
      obtain ⟨p, r, hpr⟩ := List.append_of_mem (mem_sorted.mpr hin)
      obtain ⟨a1, -⟩ := around hnd hpr
      refine ⟨p.map entryT, entryT ([], v), r.map entryT, by rw [hpr]; simp, ?_, (entryT_some _ _).mpr (.inl ⟨rfl, rfl⟩)⟩
      intro y hy
      obtain ⟨w, hw, rfl⟩ := List.mem_map.mp hy
      exact absurd (a1 w hw) (not_lt_nil _)
  | value es k v t hk hin hs _ ih =>
    intro hm
    cases hm with
    | dict _ hnd hm =>
      obtain ⟨e, h1, h2⟩ := ih (hm _ hin)
      refine ⟨e, ?_, h2⟩
      rw [encodeT, wrapT_snd, encodeSortedT_eq, seqT_some]
      obtain ⟨p, r, hpr⟩ := List.append_of_mem (mem_sorted.mpr hin)
      obtain ⟨a1, -⟩ := around hnd hpr
      refine ⟨p.map entryT, entryT (k, v), r.map entryT, by rw [hpr]; simp, ?_, (entryT_some _ _).mpr (.inr ⟨hk _ hin, h1⟩)⟩
      intro y hy
      obtain ⟨w, hw, rfl⟩ := List.mem_map.mp hy
      have hw' : w ∈ es := mem_sorted.mp (by rw [hpr]; simp [hw])
      exact (entryT_none w).mpr ⟨hk w hw', (fine_iff (hm w hw')).mpr (hs w hw' (a1 w hw))⟩

/-! ### with and without texts -/

/-- what Model/Bencode.lean keeps of the error -/
def plain (x : EncT) : Enc := (x.1, x.2.map fun _ => .encoder)

theorem plain_seq (l : List EncT) : seqEnc (l.map plain) = plain (seqT l) := by
  induction l with
  | nil => rfl
  | cons x l ih =>
    obtain ⟨b, o⟩ := x
    cases o with
    | some e => rfl
    | none =>
      rw [List.map_cons, show plain (b, none) = (b, none) from rfl, seqEnc, ih]
      rfl

theorem plain_wrap (c : UInt8) (x : EncT) : wrapEnc c (plain x) = plain (wrapT c x) := by
  obtain ⟨b, o⟩ := x
  cases o <;> rfl

theorem plain_string (s : Bytes) : encodeString s = plain (encodeStringT s) := by
  unfold encodeString encodeStringT
  split <;> rfl

theorem plain_sorted (es : List (Bytes × EncT)) : encodeSorted (es.map fun e => (e.1, plain e.2)) = plain (encodeSortedT es) := by
  unfold encodeSorted encodeSortedT
  have h := List.map_mergeSort (r := keyLe) (s := keyLe) (f := fun e : Bytes × EncT => (e.1, plain e.2)) (l := es) (fun a _ b _ => rfl)
  rw [show (fun x y : Bytes × Enc => bytesLe x.1 y.1) = keyLe from rfl, ← h, ← plain_seq, List.map_map, List.map_map]
  congr 1
  refine List.map_congr_left fun e _ => ?_
  show seqEnc [encodeString e.1, plain e.2] = plain (seqT [encodeStringT e.1, e.2])
  rw [← plain_seq, plain_string]; rfl

mutual
theorem encode_plain : ∀ v : TValue, encode (erase v) = plain (encodeT v)
  | .str s => by rw [erase, encode, encodeT, plain_string]
  | .int64 i => rfl
  | .intN i => rfl
  | .other ty => rfl
  | .list vs => by rw [erase, encode, encodeT, encodeList_plain vs, plain_seq, plain_wrap]
  | .dict es => by rw [erase, encode, encodeT, encodeEntries_plain es, plain_sorted, plain_wrap]
theorem encodeList_plain : ∀ vs : List TValue, encodeList (eraseList vs) = (encodeListT vs).map plain
  | [] => rfl
  | v :: vs => by rw [eraseList, encodeList, encodeListT, encode_plain v, encodeList_plain vs]; rfl
theorem encodeEntries_plain : ∀ es : List (Bytes × TValue), encodeEntries (eraseEntries es) = (encodeEntriesT es).map fun e => (e.1, plain e.2)
  | [] => rfl
  | (k, v) :: es => by rw [eraseEntries, encodeEntries, encodeEntriesT, encode_plain v, encodeEntries_plain es]; rfl
end

/-! ### the value that the bytes of a failed encoding begin to describe -/

mutual
/-- the value with a number in the place of everything that cannot be encoded, and without empty keys -/
def repair : Value → Value
  | .str s => if s = [] then .int64 0 else .str s
  | .int64 i => .int64 i
  | .intN i => .intN i
  | .list vs => .list (repairList vs)
  | .dict es => .dict (repairEntries es)
  | .other => .int64 0
def repairList : List Value → List Value
  | [] => []
  | v :: vs => repair v :: repairList vs
def repairEntries : List (Bytes × Value) → List (Bytes × Value)
  | [] => []
  | (k, v) :: es => if k = [] then repairEntries es else (k, repair v) :: repairEntries es
end

theorem repairList_eq (vs : List Value) : repairList vs = vs.map repair := by
  induction vs with
  | nil => rfl
  | cons v vs ih => rw [repairList, ih]; rfl

theorem repairEntries_eq (es : Dict) : repairEntries es = (es.filter fun e => e.1 ≠ []).map fun e => (e.1, repair e.2) := by
  induction es with
  | nil => rfl
  | cons e es ih =>
    obtain ⟨k, v⟩ := e
    rw [repairEntries]
    split
    · rw [List.filter_cons_of_neg (by simpa using ‹_›)]; exact ih
    · rw [List.filter_cons_of_pos (by simpa using ‹_›), ih]; rfl

theorem keys_repair (es : Dict) : (repairEntries es).map Prod.fst = (es.map Prod.fst).filter fun k => k ≠ [] := by
  rw [repairEntries_eq, List.map_map, List.filter_map]; rfl

theorem repair_encodable {v : Value} (hm : Bencode.Spec.IsMap v) : Bencode.Spec.Encodable (fun _ => True) (repair v) := by
  induction hm with
  | str s =>
    rw [repair]
    split
    · exact .int64 0 trivial
    · exact .str s ‹_›
  | int64 i => exact .int64 i trivial
  | intN i => exact .intN i trivial
  | other => exact .int64 0 trivial
  | list vs _ ih =>
    rw [repair, repairList_eq]
    refine .list _ fun v hv => ?_
    obtain ⟨w, hw, rfl⟩ := List.mem_map.mp hv
    exact ih w hw
  | dict es hnd _ ih =>
    rw [repair]
    refine .dict _ (by rw [keys_repair]; exact hnd.filter _) ?_ ?_
    · intro e he
      rw [repairEntries_eq] at he
      obtain ⟨x, hx, rfl⟩ := List.mem_map.mp he
      simpa using (List.mem_filter.mp hx).2
    · intro e he
      rw [repairEntries_eq] at he
      obtain ⟨x, hx, rfl⟩ := List.mem_map.mp he
      exact ih x (List.mem_filter.mp hx).1

theorem repair_lenOk {v : Value} (hl : Bencode.Spec.LenOk v) : Bencode.Spec.LenOk (repair v) := by
  induction hl with
  | str s h =>
    rw [repair]
    split
    · exact .int64 0
    · exact .str s h
  | int64 i => exact .int64 i
  | intN i => exact .intN i
  | other => exact .int64 0
  | list vs _ ih =>
    rw [repair, repairList_eq]
    refine .list _ fun v hv => ?_
    obtain ⟨w, hw, rfl⟩ := List.mem_map.mp hv
    exact ih w hw
  | dict es hk _ ih =>
    rw [repair, repairEntries_eq]
    refine .dict _ ?_ ?_
    · intro e he
      obtain ⟨x, hx, rfl⟩ := List.mem_map.mp he
      exact hk x (List.mem_filter.mp hx).1
    · intro e he
      obtain ⟨x, hx, rfl⟩ := List.mem_map.mp he
      exact ih x (List.mem_filter.mp hx).1

/-- `b` succeeds, with the same bytes as `a` if that succeeds and with more if not -/
def Ext (a b : Enc) : Prop := ∃ q, b = (a.1 ++ q, none) ∧ (a.2 = none ↔ q = [])

theorem Ext.refl (b : Bytes) : Ext (b, none) (b, none) := ⟨[], by simp, by simp⟩

theorem Ext.seq {α : Type} (f g : α → Enc) (l : List α) (h : ∀ x ∈ l, Ext (f x) (g x)) : Ext (seqEnc (l.map f)) (seqEnc (l.map g)) := by
  induction l with
  | nil => exact Ext.refl []
  | cons x l ih =>
    obtain ⟨r, hr, hr'⟩ := ih fun y hy => h y (by simp [hy])
    obtain ⟨q, hq, hq'⟩ := h x (by simp)
    rw [List.map_cons, List.map_cons, hq]
    generalize f x = a at hq'
    obtain ⟨b, o⟩ := a
    cases o with
    | none =>
      have : q = [] := hq'.mp rfl
      subst this
      refine ⟨r, ?_, ?_⟩
      · simp only [seqEnc, hr, List.append_nil, List.append_assoc]
      · simp only [seqEnc]; exact hr'
    | some e =>
      have hne : q ≠ [] := fun h0 => by have := hq'.mpr h0; cases this
      refine ⟨q ++ ((seqEnc (l.map f)).1 ++ r), ?_, ?_⟩
      · simp only [seqEnc, hr, List.append_assoc]
      · simp [seqEnc, hne]

theorem Ext.wrap (c : UInt8) {a b : Enc} (h : Ext a b) : Ext (wrapEnc c a) (wrapEnc c b) := by
  obtain ⟨q, rfl, hq⟩ := h
  obtain ⟨x, o⟩ := a
  cases o with
  | none =>
    have : q = [] := hq.mp rfl
    subst this
    simp only [List.append_nil]
    exact Ext.refl _
  | some e => exact ⟨q ++ [101], by simp [wrapEnc], by simp [wrapEnc]⟩

theorem repair_ext {v : Value} (hm : Bencode.Spec.IsMap v) : Ext (encode v) (encode (repair v)) := by
  induction hm with
  | str s =>
    rw [repair]
    split
    · subst s
      exact ⟨_, rfl, by simp [encode, encodeString]⟩
    · rw [encode, encodeString_ok s ‹_›]; exact Ext.refl _
  | int64 i => exact Ext.refl _
  | intN i => exact Ext.refl _
  | other => exact ⟨_, rfl, by simp [encode]⟩
  | list vs _ ih =>
    rw [repair, encode, encode, repairList_eq, encodeList_eq, encodeList_eq, List.map_map]
    exact (Ext.seq encode (encode ∘ repair) vs ih).wrap 108
  | dict es hnd hvs ih =>
    by_cases hk : ∀ e ∈ es, e.1 ≠ []
    · rw [repair, encode, encode, encodeSorted_eq, encodeSorted_eq, repairEntries_eq,
        List.filter_eq_self.mpr (fun e he => by simpa using hk e he)]
      have hs : (es.mergeSort keyLe).map (fun e => (e.1, repair e.2)) = (es.map fun e => (e.1, repair e.2)).mergeSort keyLe :=
        List.map_mergeSort (fun a _ b _ => rfl)
      rw [← hs, List.map_map]
      refine (Ext.seq _ _ _ fun e he => ?_).wrap 100
      have he := mem_sorted.mp he
      simp only [Function.comp]
      rw [encodeString_ok _ (hk e he)]
      obtain ⟨q, h1, h2⟩ := ih e he
      refine ⟨q, ?_, ?_⟩
      · rw [h1]
        generalize encode e.2 = a
        obtain ⟨x, o⟩ := a
        cases o <;> simp [seqEnc]
      · rw [← h2]
        generalize encode e.2 = a
        obtain ⟨x, o⟩ := a
        cases o <;> simp [seqEnc]
    · have : ∃ v, (([] : Bytes), v) ∈ es := by
        apply Classical.byContradiction
        intro hn
        exact hk fun e he h0 => hn ⟨e.2, by rw [← h0]; exact he⟩
      obtain ⟨w, hw⟩ := this
      have hleft : encode (.dict es) = ([100], some .encoder) := by
        rw [encode, encodeSorted_eq]
        obtain ⟨p, r, hpr⟩ := List.append_of_mem (mem_sorted.mpr hw)
        have hp : p = [] := by
          cases p with
          | nil => rfl
          | cons x p => exact absurd ((around hnd hpr).1 x (by simp)) (not_lt_nil _)
        subst hp
        rw [hpr]
        simp [encodeString, seqEnc, wrapEnc]
      obtain ⟨b, hb, -⟩ := encode_canon (repair_encodable (.dict es hnd hvs))
      have hb2 := hb
      rw [repair, encode] at hb2
      have hn : (encodeSorted (encodeEntries (repairEntries es))).2 = none := by
        rw [← wrapEnc_none (c := 100), hb2]
      rw [hleft, repair, encode]
      generalize encodeSorted (encodeEntries (repairEntries es)) = x at hn
      obtain ⟨x, o⟩ := x
      cases hn
      exact ⟨x ++ [101], by simp [wrapEnc], by simp⟩

end Verif.EncErr
