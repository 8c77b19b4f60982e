import Verif.Model.LoadText
import Verif.Spec.LoadText
import Verif.Props.Hostile
import Verif.Props.DecodeText
/-
Helper lemmas for C105.
-/
set_option autoImplicit false

namespace Verif.LoadText
open Verif.Bencode Verif.Bencode.Spec Verif.Files Verif.Torrent Verif.Path Verif.Info

/-- the same outcome, whatever the error -/
inductive Agree {α : Type} : Res α → Out α → Prop where
  | ok (a) : Agree (.ok a) (.ok a)
  | err (e w) : Agree (.err e) (.err w)
  | panic : Agree .panic .panic

theorem Agree.bind {α β : Type} {r : Res α} {o : Out α} {f : α → Res β} {g : α → Out β} (h : Agree r o) (hf : ∀ a, Agree (f a) (g a)) :
    Agree (r >>= f) (o.bind g) := by
  cases h with
  | ok a => exact hf a
  | err e w => exact .err e w
  | panic => exact .panic

theorem agree_string (d : Dict) (k : Bytes) : Agree (Dict.getString d k) (getStringT d k) := by
  unfold Dict.getString Dict.get getStringT
  cases d.lookup k with
  | none => exact .err _ _
  | some v => cases v <;> first | exact .ok _ | exact .err _ _

theorem agree_int (d : Dict) (k : Bytes) : Agree (Dict.getInt d k) (getIntT d k) := by
  unfold Dict.getInt Dict.get getIntT
  cases d.lookup k with
  | none => exact .err _ _
  | some v => cases v <;> first | exact .ok _ | exact .err _ _

theorem agree_dict (d : Dict) (k : Bytes) : Agree (Dict.getDict d k) (getDictT d k) := by
  unfold Dict.getDict Dict.get getDictT
  cases d.lookup k with
  | none => exact .err _ _
  | some v => cases v <;> first | exact .ok _ | exact .err _ _

theorem agree_list (d : Dict) (k : Bytes) : Agree (Dict.getList d k) (getListT d k) := by
  unfold Dict.getList Dict.get getListT
  cases d.lookup k with
  | none => exact .err _ _
  | some v => cases v <;> first | exact .ok _ | exact .err _ _

theorem agree_path (vs : List Value) (acc : Bytes) : Agree (pathLoop vs acc) (pathLoopT vs acc) := by
  induction vs generalizing acc with
  | nil => exact .ok _
  | cons v vs ih => cases v <;> first | exact ih _ | exact .err _ _

theorem agree_entry (v : Value) : Agree (benEntry v) (benEntryT v) := by
  cases v with
  | dict d =>
    refine (agree_int d _).bind fun n => (agree_list d _).bind fun l => (agree_path l []).bind fun s => ?_
    split
    · exact .panic
    · exact .ok _
  | _ => exact .err _ _

theorem agree_list' (vs : List Value) : Agree (FromBenList vs) (FromBenListT vs) := by
  induction vs with
  | nil => exact .ok _
  | cons v vs ih => exact (agree_entry v).bind fun e => ih.bind fun es => .ok _

theorem agree_entries (info : Dict) (name wd : Bytes) : Agree (entriesOf info name wd) (entriesT info name wd) := by
  unfold entriesOf entriesT
  have h := agree_int info (ascii "length")
  generalize Dict.getInt info (ascii "length") = r at h
  generalize getIntT info (ascii "length") = o at h
  cases h with
  | ok n => exact .ok _
  | panic => exact .panic
  | err e w =>
    have h := agree_list info (ascii "files")
    generalize Dict.getList info (ascii "files") = r at h
    generalize getListT info (ascii "files") = o at h
    cases h with
    | ok fs => exact (agree_list' fs).bind fun es => .ok _
    | panic => exact .panic
    | err e w => exact .err _ _

theorem pieceMapInner_ne_err (f k : Nat) (fe : Entry) (pl : Int) (st : PMState) (e : Err) : pieceMapInner f k fe pl st ≠ .err e := by
  induction f generalizing st with
  | zero => simp [pieceMapInner]
  | succ f ih =>
    rw [pieceMapInner]
    split
    · split
      · simp
      · split
        · simp
        · split
          · exact ih _
          · simp
    · simp

theorem pieceMapLoop_ne_err (n pl : Int) (k : Nat) (fl : List Entry) (st : PMState) (e : Err) : pieceMapLoop n pl k fl st ≠ .err e := by
  induction fl generalizing k st with
  | nil => simp [pieceMapLoop]
  | cons fe fl ih =>
    rw [pieceMapLoop]
    split
    · simp
    · cases h : pieceMapFile k fe pl st with
      | ok s => exact ih _ _
      | err e => exact absurd h (pieceMapInner_ne_err _ _ _ _ _ _)
      | panic => simp [Bind.bind, Res.bind]
      | timeout => simp [Bind.bind, Res.bind]

theorem agree_map (fl : List Entry) (n : Nat) (pl t : Int) : Agree (MakePieceMap fl n pl t) (MakePieceMapT fl n pl t) := by
  unfold MakePieceMap MakePieceMapT
  cases h : pieceMapLoop n pl 0 fl ⟨List.replicate n [], 0, pl, 0⟩ with
  | ok st =>
    simp only [Res.ok_bind]
    split
    · exact .err _ _
    · exact .ok _
  | err e => exact absurd h (pieceMapLoop_ne_err _ _ _ _ _ _)
  | panic => exact .panic
  | timeout => exact absurd h (pieceMapLoop_ne_timeout _ _ _ _ _)

theorem agree_info (name : Bytes) (pl : Int) (hashes : Bytes) (files : List EntryBase) :
    Agree (NewTorInfo name pl hashes files) (NewTorInfoT name pl hashes files) := by
  unfold NewTorInfo NewTorInfoT MakeFileList
  split
  · exact .err _ _
  · split
    · exact .panic
    · exact (agree_map _ _ _ _).bind fun pm => .ok _

theorem agree_fromDict (info : Dict) (wd : Bytes) : Agree (FromDict info wd) (FromDictT info wd) :=
  (agree_string info _).bind fun _ => (agree_int info _).bind fun _ => (agree_string info _).bind fun _ =>
    (agree_entries info _ wd).bind fun _ => agree_info _ _ _ _

theorem agree_load (H : Bytes → Bytes) (osErr : Bytes) (fdata : Option Bytes) (sp wd : Bytes) :
    Agree (FromTorrentFile H fdata sp wd) (FromTorrentFileT H osErr fdata sp wd) := by
  cases fdata with
  | none => exact .err _ _
  | some data =>
    unfold FromTorrentFile FromTorrentFileT
    rcases DecodeText.C104_same data sp with ⟨v, h1, h2⟩ | ⟨e, t, h1, h2⟩
    · simp only [h1, h2, Res.ok_bind]
      cases v with
      | dict d =>
        exact (agree_string d _).bind fun _ => (agree_dict d _).bind fun _ => (agree_fromDict _ wd).bind fun _ => .ok _
      | _ => exact .err _ _
    · simp only [h1, h2]
      exact .err _ _

/-! ### the errors of the getters -/

/-- an error of a getter for a value of type `k` -/
inductive Bad (d : Dict) (key : Bytes) (k : Kind) : Why → Prop where
  | missing : d.lookup key = none → Bad d key k (.missing key)
  | wrong (v) : d.lookup key = some v → ¬ Is k v → Bad d key k (.badType key k.asked (goType v) (k = .dict))

theorem string_out (d : Dict) (key : Bytes) : (∃ s, d.lookup key = some (.str s) ∧ getStringT d key = .ok s) ∨ ∃ w, getStringT d key = .err w ∧ Bad d key .str w := by
  unfold getStringT
  cases h : d.lookup key with
  | none => exact .inr ⟨_, rfl, .missing h⟩
  | some v => cases v <;> first | exact .inl ⟨_, rfl, rfl⟩ | exact .inr ⟨_, rfl, .wrong _ h (fun h => nomatch h)⟩

theorem int_out (d : Dict) (key : Bytes) : (∃ s, d.lookup key = some (.int64 s) ∧ getIntT d key = .ok s) ∨ ∃ w, getIntT d key = .err w ∧ Bad d key .int w := by
  unfold getIntT
  cases h : d.lookup key with
  | none => exact .inr ⟨_, rfl, .missing h⟩
  | some v => cases v <;> first | exact .inl ⟨_, rfl, rfl⟩ | exact .inr ⟨_, rfl, .wrong _ h (fun h => nomatch h)⟩

theorem dict_out (d : Dict) (key : Bytes) : (∃ s, d.lookup key = some (.dict s) ∧ getDictT d key = .ok s) ∨ ∃ w, getDictT d key = .err w ∧ Bad d key .dict w := by
  unfold getDictT
  cases h : d.lookup key with
  | none => exact .inr ⟨_, rfl, .missing h⟩
  | some v => cases v <;> first | exact .inl ⟨_, rfl, rfl⟩ | exact .inr ⟨_, rfl, .wrong _ h (fun h => nomatch h)⟩

theorem list_out (d : Dict) (key : Bytes) : (∃ s, d.lookup key = some (.list s) ∧ getListT d key = .ok s) ∨ ∃ w, getListT d key = .err w ∧ Bad d key .list w := by
  unfold getListT
  cases h : d.lookup key with
  | none => exact .inr ⟨_, rfl, .missing h⟩
  | some v => cases v <;> first | exact .inl ⟨_, rfl, rfl⟩ | exact .inr ⟨_, rfl, .wrong _ h (fun h => nomatch h)⟩

theorem path_out (vs : List Value) (acc : Bytes) :
    (∃ s, pathLoopT vs acc = .ok s ∧ (∀ v ∈ vs, Is .str v) ∧ (vs ≠ [] ∨ acc ≠ [] → s ≠ [])) ∨ ∃ v ∈ vs, ¬ Is .str v ∧ pathLoopT vs acc = .err (.badPath v) := by
  induction vs generalizing acc with
  | nil => exact .inl ⟨acc, rfl, by simp, by simp⟩
  | cons v vs ih =>
    cases v with
    | str s =>
      rw [pathLoopT]
      rcases ih (acc ++ s ++ [47]) with ⟨t, h1, h2, h3⟩ | ⟨v, hv, h1, h2⟩
      · refine .inl ⟨t, h1, ?_, fun _ => h3 (.inr (by simp))⟩
        intro v hv
        rcases List.mem_cons.mp hv with rfl | hv
        · exact .str s
        · exact h2 v hv
      · exact .inr ⟨v, by simp [hv], h1, h2⟩
    | _ => exact .inr ⟨_, List.mem_cons_self, (by intro h; cases h), rfl⟩

/-- the errors about a file entry -/
inductive BadEntry : Value → Why → Prop where
  | notDict (v) : ¬ Is .dict v → BadEntry v .notEntry
  | length (f w) : Bad f (ascii "length") .int w → BadEntry (.dict f) w
  | path (f w) : Bad f (ascii "path") .list w → BadEntry (.dict f) w
  | element (f vs v) : f.lookup (ascii "path") = some (.list vs) → v ∈ vs → ¬ Is .str v → BadEntry (.dict f) (.badPath v)

theorem entry_out {v : Value} {w : Why} (h : benEntryT v = .err w) : BadEntry v w := by
  cases v with
  | dict f =>
    unfold benEntryT at h
    simp only at h
    rcases int_out f (ascii "length") with ⟨n, -, h2⟩ | ⟨w', h2, hb⟩
    · rw [h2] at h
      rcases list_out f (ascii "path") with ⟨l, hl, h3⟩ | ⟨w', h3, hb⟩
      · rw [h3] at h
        rcases path_out l [] with ⟨s, h4, -, -⟩ | ⟨v, hv, hn, h4⟩
        · simp only [Out.bind, h4] at h
          split at h <;> cases h
        · simp only [Out.bind, h4] at h
          cases h
          exact .element f l v hl hv hn
      · rw [h3] at h
        cases h
        exact .path f _ hb
    · rw [h2] at h
      cases h
      exact .length f _ hb
  | _ => cases h; exact .notDict _ (fun h => nomatch h)

theorem benList_out {vs : List Value} {w : Why} (h : FromBenListT vs = .err w) : ∃ v ∈ vs, BadEntry v w := by
  induction vs with
  | nil => cases h
  | cons v vs ih =>
    rw [FromBenListT] at h
    cases hv : benEntryT v with
    | ok e =>
      rw [hv] at h
      cases hr : FromBenListT vs with
      | ok es => rw [hr] at h; cases h
      | err w' =>
        rw [hr] at h
        cases h
        obtain ⟨x, hx, hb⟩ := ih hr
        exact ⟨x, by simp [hx], hb⟩
      | panic => rw [hr] at h; cases h
      | timeout => rw [hr] at h; cases h
    | err w' =>
      rw [hv] at h
      cases h
      exact ⟨v, by simp, entry_out hv⟩
    | panic => rw [hv] at h; cases h
    | timeout => rw [hv] at h; cases h

/-- every value of the decoder has one of the four types -/
theorem parses_kind {v : Value} {b : Bytes} (h : Parses v b) : ∃ k, Is k v := by
  cases h with
  | str s b h => exact ⟨_, .str s⟩
  | int i b h => exact ⟨_, .int i⟩
  | list vs h => exact ⟨_, .list _⟩
  | dict es d h1 h2 h3 => exact ⟨_, .dict _⟩

theorem parses_lookup {d : Dict} {b key : Bytes} {v : Value} (h : Parses (.dict d) b) (hl : d.lookup key = some v) : ∃ b', Parses v b' := by
  cases h with
  | dict es d h1 h2 h3 =>
    have hm : (key, v) ∈ d := by
      clear h3
      induction d with
      | nil => cases hl
      | cons x d ih =>
        obtain ⟨k, u⟩ := x
        rw [List.lookup_cons] at hl
        split at hl
        · rename_i hk
          cases hl
          simp at hk
          simp [hk]
        · simp [ih hl]
    obtain ⟨pre, post, he, -⟩ := (h3.2 key v).mp hm
    have hx : (key, v) ∈ es.map fun e => (e.key, e.value) := by rw [he]; simp
    obtain ⟨x, hx, hxe⟩ := List.mem_map.mp hx
    simp only [Prod.mk.injEq] at hxe
    exact ⟨x.valDoc, hxe.2 ▸ h2 x hx⟩

theorem parses_mem {vs : List Value} {b : Bytes} {v : Value} (h : Parses (.list vs) b) (hv : v ∈ vs) : ∃ b', Parses v b' := by
  cases h with
  | list ps hp =>
    obtain ⟨p, hp', rfl⟩ := List.mem_map.mp hv
    exact ⟨_, hp p hp'⟩

theorem decode_parses' {data sp : Bytes} {top : Dict} (h : Decode data sp = .ok (.dict top)) : ∃ b, Parses (.dict top) b := by
  obtain ⟨c, r, rfl, hc⟩ := decode_nonstr_head h (by rintro s hs; cases hs)
  rw [decode_spare_eq c r sp hc] at h
  obtain ⟨b, _, -, hp⟩ := C64_sound _ _ h
  exact ⟨b, hp⟩

end Verif.LoadText
