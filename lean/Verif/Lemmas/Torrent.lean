import Verif.Model.Torrent
import Verif.Lemmas.BencodeDict
/-
Lemmas about Model/Torrent.lean: dictionaries up to `Same`, path splitting and joining.
-/
set_option autoImplicit false

namespace Verif.Torrent
open Verif.Files Verif.Bencode Verif.Bencode.Spec Verif.Path

theorem getDict_lookup {d : Dict} {k : Bytes} {v : Dict} (h : Dict.getDict d k = .ok v) : d.lookup k = some (.dict v) := by
  unfold Dict.getDict Dict.get at h
  cases hl : d.lookup k with
  | none => rw [hl] at h; cases h
  | some w =>
    rw [hl] at h
    cases w <;> simp at h
    rw [h]

theorem getString_lookup {d : Dict} {k : Bytes} {v : Bytes} (h : Dict.getString d k = .ok v) : d.lookup k = some (.str v) := by
  unfold Dict.getString Dict.get at h
  cases hl : d.lookup k with
  | none => rw [hl] at h; cases h
  | some w =>
    rw [hl] at h
    cases w <;> simp at h
    rw [h]

theorem getInt_lookup {d : Dict} {k : Bytes} {v : Int} (h : Dict.getInt d k = .ok v) : d.lookup k = some (.int64 v) := by
  unfold Dict.getInt Dict.get at h
  cases hl : d.lookup k with
  | none => rw [hl] at h; cases h
  | some w =>
    rw [hl] at h
    cases w <;> simp at h
    rw [h]

theorem getList_lookup {d : Dict} {k : Bytes} {v : List Value} (h : Dict.getList d k = .ok v) : d.lookup k = some (.list v) := by
  unfold Dict.getList Dict.get at h
  cases hl : d.lookup k with
  | none => rw [hl] at h; cases h
  | some w =>
    rw [hl] at h
    cases w <;> simp at h
    rw [h]

/-- an entry of one of two equal maps has a counterpart in the other -/
theorem same_lookup {d e : Dict} (hd : IsMap (.dict d)) (hs : Same (.dict d) (.dict e)) {k : Bytes} {v w : Value}
    (h : d.lookup k = some v) (hw : (k, w) ∈ e) : Same v w := by
  cases hd with
  | dict _ hn _ =>
    cases hs with
    | dict _ _ _ h2 => exact h2 k v w ((lookup_some_iff hn).mp h) hw

theorem same_lookup_none {d e : Dict} (hs : Same (.dict d) (.dict e)) {k : Bytes} (hk : k ∉ e.map Prod.fst) :
    d.lookup k = none := by
  rw [lookup_none_iff]
  cases hs with
  | dict _ _ h1 _ => rwa [h1]

theorem same_str {s : Bytes} {v : Value} (h : Same (.str s) v) : v = .str s := by cases h; rfl

theorem isMap_lookup {d : Dict} (hd : IsMap (.dict d)) {k : Bytes} {v : Value} (h : d.lookup k = some v) : IsMap v := by
  cases hd with
  | dict _ hn hv => exact hv (k, v) ((lookup_some_iff hn).mp h)

/-! ### joining and splitting paths -/

/-- the components, each followed by '/' -/
theorem pathLoop_str (cs : List Bytes) (acc : Bytes) :
    pathLoop (cs.map Value.str) acc = .ok (acc ++ (cs.map (· ++ [47])).flatten) := by
  induction cs generalizing acc with
  | nil => simp [pathLoop]
  | cons c cs ih => rw [List.map_cons, pathLoop, ih]; simp

theorem joinSlash_cons (c d : Bytes) (cs : List Bytes) : joinSlash (c :: d :: cs) = c ++ 47 :: joinSlash (d :: cs) := by
  rw [joinSlash]
  simp

theorem joinSlash_eq (c : Bytes) (cs : List Bytes) :
    (((c :: cs).map (· ++ [47])).flatten).take ((((c :: cs).map (· ++ [(47 : UInt8)])).flatten).length - 1) = joinSlash (c :: cs) := by
  have h : ∀ (c : Bytes) (cs : List Bytes), (((c :: cs).map (· ++ [(47 : UInt8)])).flatten) = joinSlash (c :: cs) ++ [47] := by
    intro c cs
    induction cs generalizing c with
    | nil => simp [joinSlash]
    | cons d cs ih =>
      rw [List.map_cons, List.flatten_cons, ih d, joinSlash_cons]
      simp
  rw [h]
  simp

theorem splitSlash_ne_nil (s : Bytes) : splitSlash s ≠ [] := by
  induction s with
  | nil => simp [splitSlash]
  | cons c cs ih =>
    rw [splitSlash]
    split
    · simp
    · split <;> simp

theorem splitSlash_append (w s : Bytes) (h : (47 : UInt8) ∉ w) :
    splitSlash (w ++ 47 :: s) = w :: splitSlash s := by
  induction w with
  | nil => rw [List.nil_append, splitSlash, if_pos rfl]
  | cons c cs ih =>
    simp only [List.mem_cons, not_or] at h
    rw [List.cons_append, splitSlash, if_neg (Ne.symm h.1), ih h.2]

theorem splitSlash_single (w : Bytes) (h : (47 : UInt8) ∉ w) : splitSlash w = [w] := by
  induction w with
  | nil => rfl
  | cons c cs ih =>
    simp only [List.mem_cons, not_or] at h
    rw [splitSlash, if_neg (Ne.symm h.1), ih h.2]

theorem split_join (c : Bytes) (cs : List Bytes) (h : ∀ w ∈ c :: cs, (47 : UInt8) ∉ w) :
    splitSlash (joinSlash (c :: cs)) = c :: cs := by
  induction cs generalizing c with
  | nil => exact splitSlash_single c (h c (by simp))
  | cons d cs ih =>
    rw [joinSlash_cons, splitSlash_append c _ (h c (by simp)), ih d (fun w hw => h w (List.mem_cons_of_mem _ hw))]

end Verif.Torrent
