import Verif.Lemmas.Stack
import Verif.Lemmas.BencodeDict
import Verif.Lemmas.ValueEq
import Verif.Model.Torrent
import Verif.Model.Tracker
/-
C84: the size of the stack and documents received from others.
-/
set_option autoImplicit false

namespace Verif.Stack
open Verif.Bencode Verif.Bencode.Spec Spec

theorem brackets_succ (n : Nat) : brackets (n + 1) = ascii "l" ++ brackets n ++ ascii "e" := by
  have h : List.replicate (n + 1 + 1) (101 : UInt8) = List.replicate (n + 1) 101 ++ [101] := by
    rw [List.replicate_succ' (n := n + 1)]
  unfold brackets
  rw [h, List.replicate_succ (n := n + 1)]
  simp [ascii]

theorem nest_canon (n : Nat) : Canon (nest n) (brackets n) := by
  induction n with
  | zero => exact .list [] [] .nil
  | succ n ih =>
    rw [brackets_succ, nest]
    refine .list _ _ ?_
    have := CanonSeq.cons (nest n) [] (brackets n) [] ih .nil
    rwa [List.append_nil] at this

theorem nest_lenOk (n : Nat) : LenOk (nest n) := by
  induction n with
  | zero => exact .list _ (by simp)
  | succ n ih => exact .list _ (by simpa using ih)

theorem nest_ints (P : Int → Prop) (n : Nat) : AllInts P (nest n) := by
  induction n with
  | zero => exact .list _ (by simp)
  | succ n ih => exact .list _ (by simpa using ih)

theorem nest_nested (n m : Nat) : Nested m (nest n) ↔ n < m := by
  induction n generalizing m with
  | zero =>
    constructor
    · intro h; rw [nest] at h; cases h; omega
    · intro h; obtain ⟨m, rfl⟩ : ∃ j, m = j + 1 := ⟨m - 1, by omega⟩; exact .list _ _ (by simp)
  | succ n ih =>
    constructor
    · intro h
      rw [nest] at h
      cases h with
      | list m _ h => have := (ih m).mp (h _ (by simp)); omega
    · intro h
      obtain ⟨m, rfl⟩ : ∃ j, m = j + 1 := ⟨m - 1, by omega⟩
      exact .list _ _ (by simpa using (ih m).mpr (by omega))

/-- a value that is decoded without a limit does not fit if it is nested too deep -/
theorem decodeS_none {l : Nat} {data sp : Bytes} {v : Value} (h : Decode data sp = .ok v) (hn : ¬ Nested l v) : DecodeS l data sp = none := by
  obtain ⟨r, hr⟩ := (decode_ok_iff _ _ _).mp h
  unfold DecodeS
  rcases (same_or_none (2 * data.length + 1)).1 l sp data with h0 | h0
  · rw [h0]
  · rw [hr] at h0
    exact absurd ((fits_nested _).1 _ _ _ _ _ h0) hn

/-- C84 refuted: for every size of the stack there is a document, of two bytes for each call that fits on the stack and two more, that ends the process.
It is a proper document: without the limit it would be decoded. -/
theorem C84_refuted (limit : Nat) (sp : Bytes) :
    DecodeS limit (brackets limit) sp = none ∧ (brackets limit).length = 2 * (limit + 1) ∧
      Canon (nest limit) (brackets limit) ∧ Decode (brackets limit) sp = .ok (nest limit) := by
  have hc := nest_canon limit
  have hd := (decode_canon hc (nest_lenOk limit) [] sp).1 (nest_ints _ _)
  rw [List.append_nil] at hd
  refine ⟨decodeS_none hd (by rw [nest_nested]; omega), by simp [brackets]; omega, hc, hd⟩

/-- C84 (partial: as long as the stack suffices).  The result is that of the decoder without a limit: the process goes on with a value or an error. -/
theorem C84_same_partial (limit : Nat) (data sp : Bytes) (r : Res Value) (h : DecodeS limit data sp = some r) :
    r = Decode data sp ∧ ((∃ v, r = .ok v) ∨ ∃ e, r = .err e) := by
  unfold DecodeS at h
  rcases (same_or_none (2 * data.length + 1)).1 limit sp data with h0 | h0
  · rw [h0] at h; cases h
  · rw [h0] at h
    unfold Decode DecodeFuel
    have ht := decodeValue_total sp data (Nat.le_refl _)
    cases hv : decodeValue (2 * data.length + 1) sp data with
    | ok p => rw [hv] at h; cases h; exact ⟨rfl, .inl ⟨_, rfl⟩⟩
    | err e => rw [hv] at h; cases h; exact ⟨rfl, .inr ⟨_, rfl⟩⟩
    | panic => rw [hv] at h; cases h; exact ⟨rfl, .inr ⟨_, rfl⟩⟩
    | timeout => exact absurd hv ht

example : DecodeS 2 (ascii "lleli5eee") [] = some (.ok (.list [.list [], .list [.int64 5]])) := by decide +kernel

/-- C84 (partial: documents with no more opening bytes than calls fit on the stack, in particular those that are not longer than that).  For arbitrary bytes,
well-formed or not, the process goes on. -/
theorem C84_small_partial (limit : Nat) (data sp : Bytes) (h : opens data ≤ limit) : DecodeS limit data sp = some (Decode data sp) := by
  cases hd : DecodeS limit data sp with
  | some r => rw [(C84_same_partial limit data sp r hd).1]
  | none =>
    exfalso
    unfold DecodeS at hd
    have h1 := (enough (2 * data.length + 1)).1 limit sp data h
    cases hv : valueS (2 * data.length + 1) limit sp data with
    | none => exact h1 hv
    | some x => rw [hv] at hd; cases x <;> cases hd

theorem opens_le_length (b : Bytes) : opens b ≤ b.length := List.length_filter_le _ _

example : opens (ascii "d1:ai3e1:bli-5e1:xee") ≤ 2 ∧ opens (ascii "llllxyz") ≤ 7 := by decide

/-- C84, exactly, for canonical documents: the process ends if and only if lists and dictionaries are nested deeper than the stack allows.  A flat document
of any length does no harm. -/
theorem C84_exact_partial (limit : Nat) (v : Value) (b sp : Bytes) (hc : Canon v b) (hb : b.length < 2 ^ 63)
    (hi : AllInts (fun i => -2 ^ 63 < i ∧ i < 2 ^ 63) v) :
    (DecodeS limit b sp = none ↔ ¬ Nested limit v) ∧ (Nested limit v → DecodeS limit b sp = some (.ok v)) := by
  have hl := canon_lenOk hc hb
  have hd := (decode_canon hc hl [] sp).1 (hi.mono fun i hi => by unfold DecInt; omega)
  rw [List.append_nil] at hd
  have hfit : Nested limit v → DecodeS limit b sp = some (.ok v) := by
    intro hn
    have h := valueS_canon hc (2 * b.length + 1) limit sp [] (by omega) hl hn
    rw [List.append_nil] at h
    obtain ⟨r, hr⟩ := (decode_ok_iff _ _ _).mp hd
    unfold DecodeS
    rw [h, hr]
  refine ⟨⟨fun h hn => ?_, decodeS_none hd⟩, hfit⟩
  rw [hfit hn] at h; cases h

example : Canon (nest 3) (brackets 3) ∧ (brackets 3).length < 2 ^ 63 ∧ AllInts (fun i => -2 ^ 63 < i ∧ i < 2 ^ 63) (nest 3) ∧
    Nested 4 (nest 3) ∧ ¬ Nested 3 (nest 3) :=
  ⟨nest_canon 3, by decide, nest_ints _ 3, by rw [nest_nested]; omega, by rw [nest_nested]; omega⟩

/-- the document with an entry `key` in front that holds lists around each other -/
theorem poisoned (limit : Nat) (key : Bytes) (es : Dict) (b : Bytes) (hk : key.length < 2 ^ 63) (hne : key ∉ es.map Prod.fst)
    (hc : Canon (.dict es) b) (hb : b.length < 2 ^ 63) (hi : AllInts (fun i => -2 ^ 63 < i ∧ i < 2 ^ 63) (.dict es)) :
    ∃ b', (∀ sp, Decode b' sp = .ok (.dict ((key, nest limit) :: es))) ∧ (∀ sp, DecodeS limit b' sp = none) ∧
      b'.length = b.length + (decNat key.length).length + 1 + key.length + 2 * (limit + 1) := by
  have hl := canon_lenOk hc hb
  have hk' : ∀ e ∈ es, e.1.length < 2 ^ 63 := by cases hl; assumption
  have hl' : ∀ e ∈ es, LenOk e.2 := by cases hl; assumption
  have hi' : ∀ e ∈ es, AllInts DecInt e.2 := by
    cases hi with
    | dict _ h => exact fun e he => (h e he).mono fun i hi => by unfold DecInt; omega
  cases hc with
  | dict es bs hes hsort =>
    have hd : ∀ sp, Decode (100 :: (decNat key.length ++ ascii ":" ++ key ++ (brackets limit ++ (bs ++ [101])))) sp =
        .ok (.dict ((key, nest limit) :: es)) := by
      intro sp
      obtain ⟨c, r, hcr, hc101⟩ := entry_head key
      obtain ⟨F, hF⟩ : ∃ F, F + 2 = 2 * (100 :: (decNat key.length ++ ascii ":" ++ key ++ (brackets limit ++ (bs ++ [101])))).length + 1 := ⟨_, rfl⟩
      have hs := decodeString_canon sp key (brackets limit ++ (bs ++ [101])) hk
      have hlen : bs.length + (brackets limit).length + 2 ≤ F := by
        simp only [List.length_cons, List.length_append, List.length_nil] at hF
        omega
      have hv := (decodeValue_canon (nest_canon limit) F sp (bs ++ [101]) (by omega) (nest_lenOk limit)).1 (nest_ints _ _)
      have hl2 : 0 < (brackets limit).length := by simp only [brackets, List.length_append, List.length_replicate]; omega
      have hloop := (dictLoop_canon hes F sp [] [(key, nest limit)] (by omega) hk' hl' (by
        rw [List.singleton_append, List.map_cons, List.pairwise_cons]
        refine ⟨fun a ha he => hne (by rw [show key = a from he]; exact ha), hsort.imp (fun {a b} (h : a < b) (he : a = b) => List.lt_irrefl b (he ▸ h))⟩)).1 hi'
      rw [decode_ok_iff]
      refine ⟨[], ?_⟩
      rw [← hF, decodeValue_cons, if_pos rfl]
      rw [hcr, List.cons_append] at hs ⊢
      rw [dictLoop_cons, if_neg hc101, hs]
      simp only [Res.ok_bind]
      rw [hv]
      simp only [Res.ok_bind, mapSet]
      rw [hloop]
      rfl
    refine ⟨_, hd, fun sp => decodeS_none (hd sp) (fun hn => ?_), ?_⟩
    · cases hn with
      | dict m _ h =>
        have := (nest_nested _ _).mp (h _ List.mem_cons_self)
        omega
    · simp [ascii, brackets]; omega

theorem get_cons (key k : Bytes) (x : Value) (es : Dict) (h : k ≠ key) : Dict.get ((key, x) :: es) k = Dict.get es k := by
  unfold Dict.get
  rw [List.lookup_cons, beq_eq_false_iff_ne.mpr h]

/-- a document that the examples change: `d1:ai3ee` -/
theorem exDoc : ascii "x" ∉ ([(ascii "a", Value.int64 3)] : Dict).map Prod.fst ∧ Canon (.dict [(ascii "a", .int64 3)]) (ascii "d1:ai3ee") ∧
    (ascii "d1:ai3ee").length < 2 ^ 63 ∧ AllInts (fun i => -2 ^ 63 < i ∧ i < 2 ^ 63) (.dict [(ascii "a", .int64 3)]) := by
  refine ⟨by decide, ?_, by decide, .dict _ (by simp only [List.mem_singleton, forall_eq]; exact .int64 _ (by omega))⟩
  have h := Canon.dict _ _ (.cons (ascii "a") (.int64 3) [] _ _ (by decide) (.int 3) .nil) (List.pairwise_singleton _ _)
  have e : ascii "d" ++ (decNat (ascii "a").length ++ ascii ":" ++ ascii "a" ++ (ascii "i" ++ decInt 3 ++ ascii "e") ++ []) ++ ascii "e" = ascii "d1:ai3ee" := by
    decide +kernel
  rwa [e] at h

/-- C84 refuted for torrent files: every torrent file can be changed, by an entry that nothing looks at, so that it means the same to the client (the same
torrent or the same error) but ends the process. -/
theorem C84_refuted_torrent (limit : Nat) (es : Dict) (b : Bytes) (hne : ascii "x" ∉ es.map Prod.fst)
    (hc : Canon (.dict es) b) (hb : b.length < 2 ^ 63) (hi : AllInts (fun i => -2 ^ 63 < i ∧ i < 2 ^ 63) (.dict es)) :
    ∃ b', b'.length = b.length + 5 + 2 * limit ∧
      ∀ (H : Bytes → Bytes) (sp wd : Bytes), Torrent.FromTorrentFile H (some b') sp wd = Torrent.FromTorrentFile H (some b) sp wd ∧
        DecodeS limit b' sp = none := by
  obtain ⟨b', h1, h2, h3⟩ := poisoned limit (ascii "x") es b (by decide) hne hc hb hi
  have hl1 : (decNat (ascii "x").length).length = 1 := by decide
  refine ⟨b', by rw [h3, hl1]; simp [ascii]; omega, fun H sp wd => ⟨?_, h2 sp⟩⟩
  have hd := (decode_canon hc (canon_lenOk hc hb) [] sp).1 (hi.mono fun i hi => by unfold DecInt; omega)
  rw [List.append_nil] at hd
  unfold Torrent.FromTorrentFile
  simp only [h1, hd, Res.ok_bind]
  have ha : Dict.getString ((ascii "x", nest limit) :: es) (ascii "announce") = Dict.getString es (ascii "announce") := by
    unfold Dict.getString; rw [get_cons _ _ _ _ (by decide)]
  have hf : Dict.getDict ((ascii "x", nest limit) :: es) (ascii "info") = Dict.getDict es (ascii "info") := by
    unfold Dict.getDict; rw [get_cons _ _ _ _ (by decide)]
  rw [ha, hf]

example : ∃ (es : Dict) (b : Bytes), es ≠ [] ∧ ascii "x" ∉ es.map Prod.fst ∧ Canon (.dict es) b ∧ b.length < 2 ^ 63 ∧
    AllInts (fun i => -2 ^ 63 < i ∧ i < 2 ^ 63) (.dict es) := ⟨_, _, by simp, exDoc⟩

/-- C84 refuted for responses of a tracker, in the same way -/
theorem C84_refuted_response (limit : Nat) (es : Dict) (b : Bytes) (hne : ascii "x" ∉ es.map Prod.fst)
    (hc : Canon (.dict es) b) (hb : b.length < 2 ^ 63) (hi : AllInts (fun i => -2 ^ 63 < i ∧ i < 2 ^ 63) (.dict es)) :
    ∃ b', b'.length = b.length + 5 + 2 * limit ∧
      ∀ (v6 : Peer.IP → Bytes) (parseIP : Bytes → Peer.IP) (sp : Bytes),
        Tracker.doRequest v6 parseIP (some b') sp = Tracker.doRequest v6 parseIP (some b) sp ∧ DecodeS limit b' sp = none := by
  obtain ⟨b', h1, h2, h3⟩ := poisoned limit (ascii "x") es b (by decide) hne hc hb hi
  have hl1 : (decNat (ascii "x").length).length = 1 := by decide
  refine ⟨b', by rw [h3, hl1]; simp [ascii]; omega, fun v6 parseIP sp => ⟨?_, h2 sp⟩⟩
  have hd := (decode_canon hc (canon_lenOk hc hb) [] sp).1 (hi.mono fun i hi => by unfold DecInt; omega)
  rw [List.append_nil] at hd
  have hg : ∀ k, k ≠ ascii "x" → Dict.get ((ascii "x", nest limit) :: es) k = Dict.get es k := fun k hk => get_cons _ _ _ _ hk
  unfold Tracker.doRequest
  simp only [h1, hd, Res.ok_bind]
  unfold Tracker.newResponse Tracker.getPeers Tracker.minIntervalOf Tracker.warningOf Dict.getUint Dict.getString Dict.getInt Dict.getList
  rw [hg (ascii "failure reason") (by decide), hg (ascii "interval") (by decide), hg (ascii "complete") (by decide), hg (ascii "incomplete") (by decide),
    hg (ascii "peers") (by decide), hg (ascii "min interval") (by decide), hg (ascii "warning message") (by decide)]

example : ∃ (es : Dict) (b : Bytes), es ≠ [] ∧ ascii "x" ∉ es.map Prod.fst ∧ Canon (.dict es) b ∧ b.length < 2 ^ 63 ∧
    AllInts (fun i => -2 ^ 63 < i ∧ i < 2 ^ 63) (.dict es) := ⟨_, _, by simp, exDoc⟩

end Verif.Stack
