import Verif.Props.Info
/-
Loading what has been encoded.
-/
set_option autoImplicit false

namespace Verif.Torrent
open Verif.Files Verif.Bencode Verif.Bencode.Spec Verif.Path Verif.Info

/-- entries of a decoded dictionary -/
def normDict (es : Dict) : Dict := (normEntries es).mergeSort keyLe

theorem lookup_normDict {es : Dict} (hnd : (es.map Prod.fst).Nodup) (k : Bytes) : (normDict es).lookup k = (es.lookup k).map norm := by
  have hkeys : ((normEntries es).map Prod.fst) = es.map Prod.fst := by rw [normEntries_eq, List.map_map]; rfl
  have hnd' : ((normDict es).map Prod.fst).Nodup := by
    unfold normDict
    rw [((List.mergeSort_perm (normEntries es) keyLe).map Prod.fst).nodup_iff, hkeys]
    exact hnd
  cases h : es.lookup k with
  | none =>
    rw [lookup_none_iff] at h
    rw [Option.map_none, lookup_none_iff]
    unfold normDict
    rw [((List.mergeSort_perm (normEntries es) keyLe).map Prod.fst).mem_iff, hkeys]
    exact h
  | some v =>
    rw [lookup_some_iff hnd] at h
    rw [Option.map_some, lookup_some_iff hnd']
    unfold normDict
    rw [List.mem_mergeSort, normEntries_eq, List.mem_map]
    exact ⟨(k, v), h, rfl⟩

theorem getString_of_mem {es : Dict} (hnd : (es.map Prod.fst).Nodup) {k s : Bytes} (h : (k, Value.str s) ∈ es) : Dict.getString (normDict es) k = .ok s := by
  simp only [Dict.getString, Dict.get, lookup_normDict hnd, (lookup_some_iff hnd).mpr h, Option.map_some, norm]

theorem getInt_of_mem {es : Dict} (hnd : (es.map Prod.fst).Nodup) {k : Bytes} {i : Int} (h : (k, Value.int64 i) ∈ es) : Dict.getInt (normDict es) k = .ok i := by
  simp only [Dict.getInt, Dict.get, lookup_normDict hnd, (lookup_some_iff hnd).mpr h, Option.map_some, norm]

theorem getDict_of_mem {es : Dict} (hnd : (es.map Prod.fst).Nodup) {k : Bytes} {d : Dict} (h : (k, Value.dict d) ∈ es) :
    Dict.getDict (normDict es) k = .ok (normDict d) := by
  simp only [Dict.getDict, Dict.get, lookup_normDict hnd, (lookup_some_iff hnd).mpr h, Option.map_some, norm]
  rfl

theorem getList_of_mem {es : Dict} (hnd : (es.map Prod.fst).Nodup) {k : Bytes} {vs : List Value} (h : (k, Value.list vs) ∈ es) :
    Dict.getList (normDict es) k = .ok (vs.map norm) := by
  simp only [Dict.getList, Dict.get, lookup_normDict hnd, (lookup_some_iff hnd).mpr h, Option.map_some, norm, normList_eq]

theorem getInt_missing {es : Dict} (hnd : (es.map Prod.fst).Nodup) {k : Bytes} (h : k ∉ es.map Prod.fst) : Dict.getInt (normDict es) k = .err .missingKey := by
  simp only [Dict.getInt, Dict.get, lookup_normDict hnd, lookup_none_iff.mpr h, Option.map_none]

theorem join_split (s : Bytes) : joinSlash (splitSlash s) = s := by
  induction s with
  | nil => rfl
  | cons c cs ih =>
    rw [splitSlash]
    split
    · rename_i hc
      subst hc
      cases h : splitSlash cs with
      | nil => exact absurd h (splitSlash_ne_nil cs)
      | cons d ds => rw [joinSlash_cons, ← h, ih]; rfl
    · cases h : splitSlash cs with
      | nil => exact absurd h (splitSlash_ne_nil cs)
      | cons d ds =>
        rw [h] at ih
        simp only
        cases ds with
        | nil => simp only [joinSlash] at ih ⊢; rw [← ih]
        | cons e es => rw [joinSlash_cons] at ih ⊢; rw [← ih]; rfl

theorem benEntry_loaded (e : EntryBase) : benEntry (norm (.dict (benDict e))) = .ok (MakeFileEntry e.torPath e.length) := by
  have hnd : ((benDict e).map Prod.fst).Nodup := by simp only [benDict, List.map_cons, List.map_nil]; decide
  rw [norm]
  show benEntry (.dict (normDict (benDict e))) = _
  simp only [benEntry]
  rw [getInt_of_mem hnd (i := e.length) (by simp [benDict]), getList_of_mem hnd (vs := (splitSlash e.torPath).map Value.str) (by simp [benDict]), Res.ok_bind, Res.ok_bind,
    List.map_map, show (norm ∘ Value.str) = Value.str from funext fun s => by simp [norm], pathLoop_str, Res.ok_bind, List.nil_append]
  cases h : splitSlash e.torPath with
  | nil => exact absurd h (splitSlash_ne_nil _)
  | cons c cs => rw [if_neg (by simp), joinSlash_eq, ← h, join_split]

theorem fromBenList_loaded (es : List EntryBase) :
    FromBenList ((es.map fun e => Value.dict (benDict e)).map norm) = .ok (es.map fun e => MakeFileEntry e.torPath e.length) := by
  induction es with
  | nil => rfl
  | cons e es ih => rw [List.map_cons, List.map_cons, FromBenList, benEntry_loaded, Res.ok_bind, ih]; rfl

/-- where a saved torrent's files are when it is loaded: for one file at its name, for more in a directory with the torrent's name -/
def placed (wd name : Bytes) (files : List EntryBase) : List EntryBase :=
  if files.length = 1 then [⟨(files.map EntryBase.length).sum, name, Join wd name⟩]
  else files.map fun f => ⟨f.length, f.torPath, Join (Join wd name) f.torPath⟩

theorem benInfo_nodup (ti : TorInfo) : ((benInfo ti).map Prod.fst).Nodup := by
  unfold benInfo
  cases ti.isSingle <;> simp only [List.map_cons, List.map_nil, if_true, if_false, Bool.false_eq_true] <;> decide

theorem fromDict_loaded {name : Bytes} {pl : Int} {hashes : Bytes} {files : List EntryBase} {ti : TorInfo}
    (h : NewTorInfo name pl hashes files = .ok ti) (wd : Bytes) :
    FromDict (normDict (benInfo ti)) wd = NewTorInfo name pl hashes (placed wd name files) := by
  obtain ⟨g1, g2, g3, g4, g5, g6⟩ := newTorInfo_fields h
  have hnd := benInfo_nodup ti
  unfold FromDict
  rw [getString_of_mem hnd (k := ascii "name") (s := name) (by simp [benInfo, g1]), Res.ok_bind,
    getInt_of_mem hnd (k := ascii "piece length") (i := pl) (by simp [benInfo, g2]), Res.ok_bind,
    getString_of_mem hnd (k := ascii "pieces") (s := hashes) (by simp [benInfo, g3]), Res.ok_bind]
  unfold entriesOf placed
  by_cases hs : files.length = 1
  · have hs' := g4.mpr hs
    rw [getInt_of_mem hnd (k := ascii "length") (i := (files.map EntryBase.length).sum) (by simp [benInfo, hs', g5])]
    simp only [Res.ok_bind, hs, if_true]
    rfl
  · have hs' : ti.isSingle = false := by
      cases hh : ti.isSingle with
      | false => rfl
      | true => exact absurd (g4.mp hh) hs
    rw [getInt_missing hnd (k := ascii "length") (by
      simp only [benInfo, hs', List.map_cons, List.map_nil, Bool.false_eq_true, if_false]; decide),
      getList_of_mem hnd (k := ascii "files") (vs := ti.flist.map fun e => .dict (benDict e.base)) (by simp [benInfo, hs'])]
    have : (ti.flist.map fun e => Value.dict (benDict e.base)) = files.map fun e => Value.dict (benDict e) := by
      rw [← g6, List.map_map]; rfl
    simp only [this, fromBenList_loaded, Res.ok_bind, hs, if_false]
    rw [List.map_map]
    rfl

end Verif.Torrent
