import Verif.Spec.Memory
import Verif.Lemmas.BencodeTotal
import Verif.Lemmas.BencodeDict
import Verif.Lemmas.Path
/-
What a decoded value and a cleaned path take.
-/
set_option autoImplicit false

namespace Verif.Memory
open Verif.Bencode Verif.Path Verif.Dirs

theorem sizes_append (a b : List Value) : sizes (a ++ b) = sizes a + sizes b := by
  induction a with
  | nil => simp [sizes]
  | cons v vs ih => rw [List.cons_append, sizes, sizes, ih]; omega

theorem sizese_mapSet (es : Dict) (k : Bytes) (v : Value) : sizese (mapSet es k v) ≤ sizese es + (1 + k.length + size v) := by
  induction es with
  | nil => simp [mapSet, sizese]
  | cons e es ih =>
    obtain ⟨k', v'⟩ := e
    rw [mapSet]
    split
    · subst_vars; simp only [sizese]; omega
    · simp only [sizese]; omega

/-- a string takes two bytes more in a document than it has -/
theorem decodeString_len {inp s r : Bytes} (h : decodeString [] inp = .ok (s, r)) : s.length + 2 + r.length ≤ inp.length := by
  unfold decodeString at h
  split at h
  · cases h
  · rename_i c rr hdw
    obtain ⟨ds, rfl, hds, htw, hc⟩ := split_digits hdw
    split at h
    · rw [htw] at h
      split at h
      · cases h
      · rename_i n hn
        split at h
        · rename_i hle
          simp only [List.length_nil, Nat.add_zero] at hle
          simp only [List.append_nil, Res.ok.injEq, Prod.mk.injEq] at h
          obtain ⟨rfl, rfl⟩ := h
          have hd : ds ≠ [] := by
            rintro rfl
            simp [parseDigits] at hn
          have := List.length_pos_iff.mpr hd
          simp only [List.length_take, List.length_drop, List.length_append, List.length_cons]
          omega
        · cases h
    · cases h

theorem decodeInt_len {inp r : Bytes} {i : Int} (h : decodeInt inp = .ok (i, r)) : 1 + r.length ≤ inp.length := by
  obtain ⟨p, hp, he, -⟩ := decodeInt_ext h
  have := List.length_pos_iff.mpr hp
  rw [he, List.length_append]; omega

theorem decode_size (f : Nat) :
    (∀ inp v r, decodeValue f [] inp = .ok (v, r) → size v + r.length ≤ inp.length) ∧
    (∀ inp acc es r, dictLoop f [] inp acc = .ok (es, r) → sizese es + r.length + 1 ≤ sizese acc + inp.length) ∧
    (∀ inp acc vs r, listLoop f [] inp acc = .ok (vs, r) → sizes vs + r.length + 1 ≤ sizes acc + inp.length) := by
  induction f with
  | zero =>
    refine ⟨?_, ?_, ?_⟩
    · intro inp v r h; rw [decodeValue] at h; cases h
    · intro inp acc es r h; rw [dictLoop] at h; cases h
    · intro inp acc vs r h; rw [listLoop] at h; cases h
  | succ f ih =>
    obtain ⟨ih1, ih2, ih3⟩ := ih
    refine ⟨?_, ?_, ?_⟩
    · intro inp v r h
      cases inp with
      | nil => rw [decodeValue_nil] at h; cases h
      | cons c rr =>
        rw [decodeValue_cons] at h
        split at h
        · obtain ⟨⟨es, r'⟩, h1, h⟩ := Res.bind_eq_ok.mp h
          simp only [Res.ok.injEq, Prod.mk.injEq] at h
          obtain ⟨rfl, rfl⟩ := h
          have := ih2 _ _ _ _ h1
          simp only [size, List.length_cons, sizese] at this ⊢
          omega
        · split at h
          · obtain ⟨⟨vs, r'⟩, h1, h⟩ := Res.bind_eq_ok.mp h
            simp only [Res.ok.injEq, Prod.mk.injEq] at h
            obtain ⟨rfl, rfl⟩ := h
            have := ih3 _ _ _ _ h1
            simp only [size, List.length_cons, sizes] at this ⊢
            omega
          · split at h
            · obtain ⟨⟨i, r'⟩, h1, h⟩ := Res.bind_eq_ok.mp h
              simp only [Res.ok.injEq, Prod.mk.injEq] at h
              obtain ⟨rfl, rfl⟩ := h
              have := decodeInt_len h1
              simpa only [size] using this
            · obtain ⟨⟨s, r'⟩, h1, h⟩ := Res.bind_eq_ok.mp h
              simp only [Res.ok.injEq, Prod.mk.injEq] at h
              obtain ⟨rfl, rfl⟩ := h
              have := decodeString_len h1
              simp only [size]
              omega
    · intro inp acc es r h
      cases inp with
      | nil => rw [dictLoop_nil] at h; cases h
      | cons c rr =>
        rw [dictLoop_cons] at h
        split at h
        · simp only [Res.ok.injEq, Prod.mk.injEq] at h
          obtain ⟨rfl, rfl⟩ := h
          simp only [List.length_cons]; omega
        · obtain ⟨⟨k, r1⟩, h1, h⟩ := Res.bind_eq_ok.mp h
          obtain ⟨⟨v, r2⟩, h2, h⟩ := Res.bind_eq_ok.mp h
          have a := decodeString_len h1
          have b := ih1 _ _ _ h2
          have c := ih2 _ _ _ _ h
          have d := sizese_mapSet acc k v
          omega
    · intro inp acc vs r h
      cases inp with
      | nil => rw [listLoop_nil] at h; cases h
      | cons c rr =>
        rw [listLoop_cons] at h
        split at h
        · simp only [Res.ok.injEq, Prod.mk.injEq] at h
          obtain ⟨rfl, rfl⟩ := h
          simp only [List.length_cons]; omega
        · obtain ⟨⟨v, r1⟩, h1, h⟩ := Res.bind_eq_ok.mp h
          have b := ih1 _ _ _ h1
          have c := ih3 _ _ _ _ h
          rw [sizes_append] at c
          simp only [sizes] at c
          omega

theorem size_pos (v : Value) : 1 ≤ size v := by
  cases v <;> simp [size]

theorem sizese_lookup {es : Dict} {k : Bytes} {v : Value} (h : es.lookup k = some v) : size v + k.length + 1 ≤ sizese es := by
  induction es with
  | nil => cases h
  | cons e es ih =>
    obtain ⟨k', v'⟩ := e
    rw [List.lookup_cons] at h
    split at h
    · rename_i hk
      simp only [Option.some.injEq] at h
      subst h
      have : k = k' := by simpa using hk
      subst this
      simp only [sizese]; omega
    · have := ih h
      simp only [sizese]; omega

theorem sizes_length (vs : List Value) : vs.length ≤ sizes vs := by
  induction vs with
  | nil => simp [sizes]
  | cons v vs ih => have := size_pos v; simp only [sizes, List.length_cons]; omega

theorem bytes_nil : bytes [] = 0 := rfl
theorem bytes_cons (p : Bytes) (ps : List Bytes) : bytes (p :: ps) = p.length + bytes ps := by simp [bytes]
theorem bytes_append (a b : List Bytes) : bytes (a ++ b) = bytes a + bytes b := by simp [bytes]
theorem bytes_mem {w : Bytes} {ws : List Bytes} (h : w ∈ ws) : w.length ≤ bytes ws := by
  induction ws with
  | nil => cases h
  | cons x xs ih =>
    rw [bytes_cons]
    rcases List.mem_cons.mp h with rfl | h
    · omega
    · have := ih h; omega

/-! ### paths -/

/-- elements and the slashes after them -/
def slashed (ws : List Bytes) : Nat := (ws.map fun w => w.length + 1).sum

theorem slashed_cons (w : Bytes) (ws : List Bytes) : slashed (w :: ws) = w.length + 1 + slashed ws := by simp [slashed]
theorem slashed_reverse (ws : List Bytes) : slashed ws.reverse = slashed ws := by
  unfold slashed
  rw [List.map_reverse, List.sum_reverse]

theorem joinSlash_len (ws : List Bytes) : (joinSlash ws).length = slashed ws - 1 := by
  induction ws with
  | nil => rfl
  | cons w ws ih =>
    cases ws with
    | nil => simp [joinSlash, slashed]
    | cons v vs =>
      rw [joinSlash, List.length_append, List.length_cons, ih, slashed_cons w]
      · have := slashed_cons v vs; omega
      · simp

theorem splitSlash_len (s : Bytes) : slashed (splitSlash s) = s.length + 1 := by
  induction s with
  | nil => rfl
  | cons c cs ih =>
    rw [splitSlash]
    split
    · rw [slashed_cons, ih]; simp; omega
    · cases h : splitSlash cs with
      | nil => exact absurd h (Verif.Torrent.splitSlash_ne_nil cs)
      | cons w ws =>
        rw [h, slashed_cons] at ih
        simp only [slashed_cons, List.length_cons]
        omega

theorem cleanLoop_len (r : Bool) (ws out : List Bytes) : slashed (cleanLoop r ws out) ≤ slashed ws + slashed out := by
  induction ws generalizing out with
  | nil => simp [cleanLoop]
  | cons w ws ih =>
    rw [cleanLoop.eq_def]
    simp only
    split
    · have := ih out; rw [slashed_cons]; omega
    · split
      · rename_i h2
        subst h2
        cases out with
        | nil =>
          simp only
          split
          · have := ih []; rw [slashed_cons]; omega
          · have := ih [[46, 46]]
            rw [slashed_cons] at this ⊢
            simp only [List.length_cons, List.length_nil] at this ⊢
            omega
        | cons t out =>
          simp only
          split
          · have := ih ([46, 46] :: t :: out)
            rw [slashed_cons] at this ⊢
            omega
          · have := ih out
            rw [slashed_cons, slashed_cons]; omega
      · have := ih (w :: out)
        rw [slashed_cons] at this ⊢
        omega

theorem clean_len (p : Bytes) (hp : p ≠ []) : (Clean p).length ≤ p.length := by
  have h1 := cleanLoop_len (rooted p) (splitSlash p) []
  have h2 := splitSlash_len p
  have h0 : slashed [] = 0 := rfl
  have h3 : slashed (cleanElems p) ≤ p.length + 1 := by
    unfold cleanElems
    rw [slashed_reverse]; omega
  have hpos := List.length_pos_iff.mpr hp
  unfold Clean
  split
  · rename_i hr
    -- the first element of a rooted path is empty and dropped
    have h4 : slashed (cleanElems p) ≤ p.length := by
      obtain ⟨c, cs, rfl⟩ := List.exists_cons_of_ne_nil hp
      have hc : c = 47 := by simpa [rooted] using hr
      subst hc
      unfold cleanElems
      rw [slashed_reverse, splitSlash, if_pos rfl, cleanLoop, if_pos (.inl rfl)]
      have := cleanLoop_len (rooted (47 :: cs)) (splitSlash cs) []
      have h5 := splitSlash_len cs
      simp only [List.length_cons]; omega
    rw [List.length_cons, joinSlash_len]; omega
  · split
    · simp only [List.length_cons, List.length_nil]; omega
    · rw [joinSlash_len]; omega

theorem join_len (a b : Bytes) : (Join a b).length ≤ a.length + b.length + 1 := by
  unfold Join
  split
  · have := clean_len (a ++ 47 :: b) (by simp)
    simp only [List.length_append, List.length_cons] at this
    omega
  · split
    · rename_i hb
      have := clean_len b hb
      omega
    · simp

/-- no place on the way of a path is longer than the path -/
theorem walk_len (n : Nat) (dir ws : List Bytes) (hd : ∀ w ∈ dir, w.length ≤ n) (hw : ∀ w ∈ ws, w.length ≤ n) :
    ∀ w ∈ walk dir ws, w.length ≤ n := by
  induction ws generalizing dir with
  | nil => exact hd
  | cons x xs ih =>
    rw [walk_cons]
    refine ih _ ?_ fun w h => hw w (by simp [h])
    unfold step
    split
    · exact hd
    · split
      · exact fun w h => hd w ((List.dropLast_sublist dir).mem h)
      · intro w h
        rcases List.mem_append.mp h with h | h
        · exact hd w h
        · rw [List.mem_singleton.mp h]; exact hw x (by simp)

theorem slashed_mem {w : Bytes} {ws : List Bytes} (h : w ∈ ws) : w.length + 1 ≤ slashed ws := by
  induction ws with
  | nil => cases h
  | cons x xs ih =>
    rw [slashed_cons]
    rcases List.mem_cons.mp h with rfl | h
    · omega
    · have := ih h; omega

theorem resolve_len (p : Bytes) : ∀ w ∈ resolve [] p, w.length ≤ p.length := by
  unfold resolve
  rw [ite_self, components_eq]
  refine walk_len _ _ _ (by simp) ?_
  intro w hw
  have := slashed_mem hw
  rw [splitSlash_len] at this
  omega

end Verif.Memory
