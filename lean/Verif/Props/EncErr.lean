import Verif.Lemmas.EncErr
import Verif.Props.Bencode
/-
Properties C113 and C114: what is said about a value that cannot be encoded (/repo/src/bencode/encode.go), and what the bytes are that come with the error.
-/
set_option autoImplicit false

namespace Verif.EncErr
open Verif.Bencode Spec

/-! ### C113 -/

/-- **C113**: the texts belong to the errors of `Encode`: the same bytes are returned, and an error in the same cases. -/
theorem C113_same (v : TValue) : (EncodeT v).1 = (Encode (erase v)).1 ∧ ((EncodeT v).2 = none ↔ (Encode (erase v)).2 = none) ∧
    ((EncodeT v).2 ≠ none ↔ (Encode (erase v)).2 = some .encoder) := by
  unfold EncodeT Encode
  rw [encode_plain v]
  generalize encodeT v = x
  obtain ⟨b, o⟩ := x
  cases o <;> simp [plain]

example : EncodeT (.list [.int64 5, .other (ascii "bool"), .str []]) = (ascii "li5e", some (.unsupported (ascii "bool"))) := by decide +kernel

/-- **C113**, exact: `Encode` returns an error with the text `t` precisely if `t` is the complaint about the first thing in the value that cannot be encoded; and it returns no
error precisely if there is no such thing. -/
theorem C113_exact (v : TValue) (hm : IsMap v) : (∀ t, (∃ e, (EncodeT v).2 = some e ∧ e.text = t) ↔ Fault v t) ∧ ((EncodeT v).2 = none ↔ Fine v) := by
  refine ⟨fun t => ⟨?_, fun h => of_fault h hm⟩, fine_iff hm⟩
  rintro ⟨e, h, rfl⟩
  exact fault_of hm e h

/-- an instance: the keys are looked at in their order, so the value of `a` is the first that is wrong, though the map has it behind that of `b` -/
example : Fault (.dict [(ascii "b", .str []), (ascii "a", .list [.int64 1, .other (ascii "bool")])]) (ascii "encoder error: unsupported bencoding type [bool]") :=
  .value _ (ascii "a") (.list ([.int64 1] ++ .other (ascii "bool") :: [])) _ (by simp; decide) (by simp)
    (by intro e he hlt; simp at he; rcases he with rfl | rfl <;> exact absurd hlt (by decide))
    (.list [.int64 1] _ [] _ (by intro w hw; simp at hw; subst hw; exact .int64 1) (.other _))

/-- the same value for another order of its maps -/
inductive Shuffled : TValue → TValue → Prop
  | str (s : Bytes) : Shuffled (.str s) (.str s)
  | int64 (i : Int) : Shuffled (.int64 i) (.int64 i)
  | intN (i : Int) : Shuffled (.intN i) (.intN i)
  | other (ty : Bytes) : Shuffled (.other ty) (.other ty)
  | list (vs ws : List TValue) : vs.length = ws.length → (∀ (n : Nat) (v w : TValue), vs[n]? = some v → ws[n]? = some w → Shuffled v w) → Shuffled (.list vs) (.list ws)
  | dict (es fs : List (Bytes × TValue)) : (∀ k, k ∈ es.map Prod.fst ↔ k ∈ fs.map Prod.fst) → (∀ k v w, (k, v) ∈ es → (k, w) ∈ fs → Shuffled v w) →
      Shuffled (.dict es) (.dict fs)

theorem partner {es fs : List (Bytes × TValue)} (h1 : ∀ k, k ∈ es.map Prod.fst ↔ k ∈ fs.map Prod.fst) (h2 : ∀ k v w, (k, v) ∈ es → (k, w) ∈ fs → Shuffled v w) :
    (∀ k v, (k, v) ∈ es → ∃ w, (k, w) ∈ fs ∧ Shuffled v w) ∧ ∀ k w, (k, w) ∈ fs → ∃ v, (k, v) ∈ es ∧ Shuffled v w := by
  constructor
  · intro k v h
    obtain ⟨⟨k', w⟩, hw, rfl⟩ := List.mem_map.mp ((h1 k).mp (List.mem_map_of_mem (f := Prod.fst) h))
    exact ⟨w, hw, h2 _ _ _ h hw⟩
  · intro k w h
    obtain ⟨⟨k', v⟩, hv, rfl⟩ := List.mem_map.mp ((h1 k).mpr (List.mem_map_of_mem (f := Prod.fst) h))
    exact ⟨v, hv, h2 _ _ _ hv h⟩

theorem fine_shuffled {v : TValue} (h : Fine v) : ∀ w, Shuffled v w → Fine w := by
  induction h with
  | str s h => intro w hw; cases hw; exact .str s h
  | int64 i => intro w hw; cases hw; exact .int64 i
  | intN i => intro w hw; cases hw; exact .intN i
  | list vs _ ih =>
    intro w hw
    cases hw with
    | list _ ws hl h =>
      refine .list ws fun x hx => ?_
      obtain ⟨n, hn⟩ := List.mem_iff_getElem?.mp hx
      have hlt : n < vs.length := by rw [hl]; exact (List.getElem?_eq_some_iff.mp hn).1
      exact ih vs[n] (List.getElem_mem hlt) x (h n _ _ (List.getElem?_eq_getElem hlt) hn)
  | dict es hk _ ih =>
    intro w hw
    cases hw with
    | dict _ fs h1 h2 =>
      obtain ⟨h1, h2⟩ := partner h1 h2
      refine .dict fs ?_ ?_
      · intro e he
        obtain ⟨v, hv, -⟩ := h2 e.1 e.2 he
        exact hk (e.1, v) hv
      · intro e he
        obtain ⟨v, hv, hs⟩ := h2 e.1 e.2 he
        exact ih _ hv _ hs

/-- **C113**: what is said does not depend on the order in which the maps have their keys. -/
theorem C113_order (v : TValue) (t : Bytes) (h : Fault v t) : ∀ w, Shuffled v w → Fault w t := by
  induction h with
  | str => intro w hw; cases hw; exact .str
  | other ty => intro w hw; cases hw; exact .other ty
  | list pre v post t hp _ ih =>
    intro w hw
    cases hw with
    | list _ ws hl h =>
      have hlen : pre.length < ws.length := by rw [← hl]; simp
      have hsplit : ws = ws.take pre.length ++ ws[pre.length] :: ws.drop (pre.length + 1) := by
        rw [List.getElem_cons_drop, List.take_append_drop]
      rw [hsplit]
      refine .list _ _ _ _ ?_ (ih _ (h pre.length _ _ (by simp) (List.getElem?_eq_getElem hlen)))
      intro x hx
      obtain ⟨n, hn⟩ := List.mem_iff_getElem?.mp hx
      have hn' : n < pre.length := by
        have := (List.getElem?_eq_some_iff.mp hn).1
        rw [List.length_take] at this; omega
      rw [List.getElem?_take_of_lt hn'] at hn
      exact fine_shuffled (hp _ (List.getElem_mem hn')) x (h n _ _ (by rw [List.getElem?_append_left hn', List.getElem?_eq_getElem hn']) hn)
  | key es v hin =>
    intro w hw
    cases hw with
    | dict _ fs h1 h2 =>
      obtain ⟨h1, h2⟩ := partner h1 h2
      obtain ⟨x, hx, -⟩ := h1 _ _ hin
      exact .key fs x hx
  | value es k v t hk hin hs _ ih =>
    intro w hw
    cases hw with
    | dict _ fs h1 h2 =>
      obtain ⟨h1, h2⟩ := partner h1 h2
      obtain ⟨x, hx, hsx⟩ := h1 _ _ hin
      refine .value fs k x t ?_ hx ?_ (ih x hsx)
      · intro e he
        obtain ⟨y, hy, -⟩ := h2 e.1 e.2 he
        exact hk (e.1, y) hy
      · intro e he hlt
        obtain ⟨y, hy, hsy⟩ := h2 e.1 e.2 he
        exact fine_shuffled (hs _ hy hlt) _ hsy

example : Shuffled (.dict [(ascii "b", .str []), (ascii "a", .other (ascii "bool"))]) (.dict [(ascii "a", .other (ascii "bool")), (ascii "b", .str [])]) := by
  refine .dict _ _ (by intro k; simp [or_comm]) ?_
  intro k v w hv hw
  simp only [List.mem_cons, Prod.mk.injEq, List.not_mem_nil, or_false] at hv hw
  rcases hv with ⟨rfl, rfl⟩ | ⟨rfl, rfl⟩ <;> rcases hw with ⟨h, rfl⟩ | ⟨h, rfl⟩
  · exact absurd h (by decide)
  · exact .str _
  · exact .other _
  · exact absurd h (by decide)

/-- **C113** refuted: it is not said where.  The text for a list is that for its first element that is wrong, and the text for a dictionary that for a value in it, or is the same
for a key and a value that are empty. -/
theorem C113_refuted_where (v : TValue) (t : Bytes) (h : Fault v t) :
    (∀ pre post, (∀ w ∈ pre, Fine w) → Fault (.list (pre ++ v :: post)) t) ∧ (∀ k, k ≠ [] → Fault (.dict [(k, v)]) t) ∧
    ∀ w, Fault (.dict [([], w)]) (ascii "encoder error: cannot encode an empty string") ∧ Fault (.str []) (ascii "encoder error: cannot encode an empty string") := by
  refine ⟨fun pre post hp => .list pre v post t hp h, fun k hk => .value _ k v t ?_ (by simp) ?_ h, fun w => ⟨.key _ w (by simp), .str⟩⟩
  · intro e he; simp at he; subst he; exact hk
  · intro e he hlt
    simp at he
    subst he
    exact absurd hlt (List.lt_irrefl _)

example : Fault (.other (ascii "<nil>")) (ascii "encoder error: unsupported bencoding type [<nil>]") := .other _

/-! ### C114 -/

/-- **C114**: the bytes that come with an error are the beginning of a document, and not all of it. -/
theorem C114_beginning (v : Value) (hm : Bencode.Spec.IsMap v) (b : Bytes) (e : Err) (h : Encode v = (b, some e)) :
    ∃ w q, Bencode.Spec.IsMap w ∧ (Bencode.Spec.LenOk v → Bencode.Spec.LenOk w) ∧ (∀ s, w ≠ .str s) ∧ Encode w = (b ++ q, none) ∧ q ≠ [] := by
  obtain ⟨q, h1, h2⟩ := repair_ext hm
  unfold Encode at h
  rw [h] at h1 h2
  refine ⟨repair v, q, encodable_isMap (repair_encodable hm), repair_lenOk, ?_, h1, fun h0 => by have := h2.mpr h0; cases this⟩
  intro s hs
  cases v with
  | str s' =>
    rw [repair] at hs
    split at hs
    · cases hs
    · rw [encode, encodeString_ok s' ‹_›] at h; cases h
  | _ => rw [repair] at hs; cases hs

/-- **C114**: they are refused by `Decode`, whatever is behind them in memory. -/
theorem C114_refused (v : Value) (hm : Bencode.Spec.IsMap v) (hl : Bencode.Spec.LenOk v) (b : Bytes) (e : Err) (h : Encode v = (b, some e)) (sp : Bytes) :
    ∃ e', Decode b sp = .err e' := by
  obtain ⟨w, q, h1, h2, h3, h4, h5⟩ := C114_beginning v hm b e h
  exact C07_truncation_rejected_any_capacity w h1 (h2 hl) h3 _ b q h4 rfl h5 sp

/-- **C114**: they are not the encoding of any value and do not begin with one.  So the info-hash of a file whose info dictionary cannot be encoded, which is the hash of such bytes
(torrent.go:100-101, C32), is not that of a file whose info dictionary can be encoded, unless two byte strings have the same hash. -/
theorem C114_no_document (v w : Value) (hv : Bencode.Spec.IsMap v) (hw : Bencode.Spec.IsMap w) (b b' : Bytes) (e : Err) (h : Encode v = (b, some e)) (h' : Encode w = (b', none)) :
    ¬ b' <+: b := by
  intro hp
  obtain ⟨u, q, h1, -, -, h4, h5⟩ := C114_beginning v hv b e h
  have := (C04_unambiguous w u b' (b ++ q) hw h1 h' h4 (hp.trans (List.prefix_append b q))).1
  have hle := hp.length_le
  rw [this, List.length_append] at hle
  have : q.length ≠ 0 := fun h0 => h5 (List.length_eq_zero_iff.mp h0)
  omega

/-- an instance: an info dictionary with an empty name -/
example : Encode (.dict [(ascii "name", .str []), (ascii "length", .int64 3)]) = (ascii "d6:lengthi3e4:name", some .encoder) ∧
    (∃ e, Decode (ascii "d6:lengthi3e4:name") [49, 58, 97, 101] = .err e) := by
  have h : Encode (.dict [(ascii "name", .str []), (ascii "length", .int64 3)]) = (ascii "d6:lengthi3e4:name", some .encoder) := by
    simp [Encode, encode, encodeEntries, encodeSorted, List.mergeSort, List.MergeSort.Internal.splitInTwo, bytesLe, ascii, wrapEnc, seqEnc, encodeString, encodeInt,
      natDec_lt, intDec]
  refine ⟨h, C114_refused _ (.dict _ (by decide) ?_) (.dict _ ?_ ?_) _ _ h _⟩
  · intro e he; simp at he; rcases he with rfl | rfl
    · exact .str _
    · exact .int64 _
  · intro e he; simp at he; rcases he with rfl | rfl <;> decide
  · intro e he; simp at he; rcases he with rfl | rfl
    · exact .str _ (by decide)
    · exact .int64 _

end Verif.EncErr
