import Verif.Lemmas.Places
import Verif.Props.Paths
import Verif.Props.Create
/-
Property C85: files of a torrent that share a place (/repo/src/torrent/info/info.go:213-244).
-/
set_option autoImplicit false

namespace Verif.Torrent
open Verif.Files Verif.Bencode Verif.Bencode.Spec Verif.Path Verif.Dirs Verif.Info Verif.Layout Verif.FS Verif.FileIO Verif.Create

/-- the files of a loaded torrent with a list of files: all in the directory made of the working directory and the name -/
theorem multi_paths {d : Dict} {wd : Bytes} {ti : TorInfo} (h : FromDict d wd = .ok ti) (hm : intAt d (ascii "length") = none) :
    ∀ e ∈ ti.flist, e.base.localPath = Join (Join wd ti.name) e.base.torPath := by
  obtain ⟨n, p, ps, fes, h1, h2, h3, h4, h5⟩ := fromDict_ok h
  obtain ⟨g1, -, -, -, -, g6⟩ := newTorInfo_fields h5
  intro e he
  have hmem : e.base ∈ fes := by rw [← g6]; exact List.mem_map_of_mem he
  rw [g1]
  unfold entriesOf at h4
  have hint : ∃ er, Dict.getInt d (ascii "length") = .err er := by
    unfold intAt at hm
    simp only [Dict.getInt, Dict.get]
    cases hl : d.lookup (ascii "length") with
    | none => exact ⟨_, rfl⟩
    | some v =>
      rw [hl] at hm
      cases v with
      | int64 i => cases hm
      | _ => exact ⟨_, rfl⟩
  obtain ⟨er, hint⟩ := hint
  rw [hint] at h4
  simp only at h4
  cases hf : Dict.getList d (ascii "files") with
  | ok vs =>
    rw [hf] at h4
    simp only at h4
    obtain ⟨es, -, h4⟩ := Res.bind_eq_ok.mp h4
    simp only [Res.ok.injEq] at h4
    rw [← h4] at hmem
    obtain ⟨b, -, hb⟩ := List.mem_map.mp hmem
    rw [← hb]
    rfl
  | _ => rw [hf] at h4; cases h4

/-- the steps to a file of a torrent with a list of files -/
theorem multi_steps {d : Dict} (hm : intAt d (ascii "length") = none) (name t : Bytes) :
    stepsTo d name t = components name ++ components t := by
  unfold stepsTo
  unfold intAt at hm
  cases hl : d.lookup (ascii "length") with
  | none => rfl
  | some v =>
    rw [hl] at hm
    cases v with
    | int64 i => cases hm
    | _ => rfl

/-- **C85**, exact: two files whose paths in the torrent do not lead out of the torrent's directory get the same local path exactly if their paths
lead to the same place; otherwise they are at different places, and one is inside of the other only if the torrent says so.  Missing: nothing
prevents the first (`C85_refuted_accepted`). -/
theorem C85_same_iff_partial (d : Dict) (wd : Bytes) (hwd : wd ≠ []) (ti : TorInfo) (h : FromDict d wd = .ok ti)
    (hm : intAt d (ascii "length") = none) (e f : Entry) (he : e ∈ ti.flist) (hf : f ∈ ti.flist)
    (hes : Stays 0 (components e.base.torPath)) (hfs : Stays 0 (components f.base.torPath)) :
    (e.base.localPath = f.base.localPath ↔ walk [] (components e.base.torPath) = walk [] (components f.base.torPath)) ∧
    ∀ cwd, (resolve cwd e.base.localPath = resolve cwd f.base.localPath ↔
        walk [] (components e.base.torPath) = walk [] (components f.base.torPath)) ∧
      ((∃ below, resolve cwd f.base.localPath = resolve cwd e.base.localPath ++ below) ↔
        ∃ below, walk [] (components f.base.torPath) = walk [] (components e.base.torPath) ++ below) := by
  have hres : ∀ cwd, ∀ x ∈ ti.flist, Stays 0 (components x.base.torPath) →
      resolve cwd x.base.localPath = walk (resolve cwd wd) (components ti.name) ++ walk [] (components x.base.torPath) := by
    intro cwd x hx hxs
    rw [C34_location d wd hwd ti h cwd x hx, multi_steps hm, walk_append, walk_stays _ _ hxs]
  have hiff : ∀ cwd, (resolve cwd e.base.localPath = resolve cwd f.base.localPath ↔
      walk [] (components e.base.torPath) = walk [] (components f.base.torPath)) := by
    intro cwd
    rw [hres cwd e he hes, hres cwd f hf hfs]
    exact List.append_right_inj _
  refine ⟨⟨fun hp => (hiff []).mp (by rw [hp]), fun hw => ?_⟩, fun cwd => ⟨hiff cwd, ?_⟩⟩
  · rw [multi_paths h hm e he, multi_paths h hm f hf]
    exact join_same _ _ _ (join_ne_nil _ _ hwd) hes hfs hw
  · rw [hres cwd e he hes, hres cwd f hf hfs]
    constructor
    · rintro ⟨b, hb⟩
      rw [List.append_assoc] at hb
      exact ⟨b, (List.append_right_inj _).mp hb⟩
    · rintro ⟨b, hb⟩
      exact ⟨b, by rw [hb, List.append_assoc]⟩

theorem nodup_map_of {α β γ : Type} {f : α → β} {g : α → γ} {l : List α} (h : ∀ a ∈ l, ∀ b ∈ l, f a = f b → g a = g b)
    (hn : (l.map g).Nodup) : (l.map f).Nodup := by
  induction l with
  | nil => exact List.nodup_nil
  | cons x xs ih =>
    rw [List.map_cons, List.nodup_cons] at hn ⊢
    refine ⟨fun hmem => ?_, ih (fun a ha b hb => h a (by simp [ha]) b (by simp [hb])) hn.2⟩
    obtain ⟨y, hy, he⟩ := List.mem_map.mp hmem
    exact hn.1 (by rw [h x (by simp) y (by simp [hy]) he.symm]; exact List.mem_map_of_mem hy)

/-- **C85**, what a torrent needs for its files to be at different places (the hypothesis `distinct` of C71 and C72): different places below the
torrent's directory. -/
theorem C85_distinct_partial (d : Dict) (wd : Bytes) (hwd : wd ≠ []) (ti : TorInfo) (h : FromDict d wd = .ok ti)
    (hm : intAt d (ascii "length") = none) (hs : ∀ e ∈ ti.flist, Stays 0 (components e.base.torPath))
    (hd : (ti.flist.map fun e => walk [] (components e.base.torPath)).Nodup) :
    (ti.flist.map fun e => e.base.localPath).Nodup ∧ ∀ cwd, (ti.flist.map fun e => resolve cwd e.base.localPath).Nodup := by
  constructor
  · refine nodup_map_of (fun a ha b hb hab => ?_) hd
    exact (C85_same_iff_partial d wd hwd ti h hm a b ha hb (hs a ha) (hs b hb)).1.mp hab
  · intro cwd
    refine nodup_map_of (fun a ha b hb hab => ?_) hd
    exact ((C85_same_iff_partial d wd hwd ti h hm a b ha hb (hs a ha) (hs b hb)).2 cwd).1.mp hab

theorem benEntry_info (n : Int) (cs : List Bytes) (h : cs ≠ []) : benEntry (fileInfo (n, cs)) = .ok (MakeFileEntry (joinSlash cs) n) := by
  obtain ⟨c, cs, rfl⟩ := List.exists_cons_of_ne_nil h
  have h1 : Dict.getInt [(ascii "length", Value.int64 n), (ascii "path", .list ((c :: cs).map Value.str))] (ascii "length") = .ok n := rfl
  have h2 : Dict.getList [(ascii "length", Value.int64 n), (ascii "path", .list ((c :: cs).map Value.str))] (ascii "path") =
      .ok ((c :: cs).map Value.str) := rfl
  unfold fileInfo
  simp only [benEntry]
  rw [h1, Res.ok_bind, h2, Res.ok_bind, pathLoop_str, Res.ok_bind, List.nil_append, if_neg (by simp), joinSlash_eq]

theorem fromBenList_info (fs : List (Int × List Bytes)) (h : ∀ f ∈ fs, f.2 ≠ []) :
    FromBenList (fs.map fileInfo) = .ok (fs.map fun f => MakeFileEntry (joinSlash f.2) f.1) := by
  induction fs with
  | nil => rfl
  | cons f fs ih =>
    rw [List.map_cons, FromBenList, benEntry_info f.1 f.2 (h f (by simp)), Res.ok_bind, ih fun g hg => h g (by simp [hg])]
    rfl

/-- loading an info dictionary with a list of files -/
theorem fromDict_multi (name pieces wd : Bytes) (pl : Int) (fs : List (Int × List Bytes)) (h : ∀ f ∈ fs, f.2 ≠ []) :
    FromDict (multiInfo name pieces pl fs) wd =
      NewTorInfo name pl pieces (fs.map fun f => ⟨f.1, joinSlash f.2, Join (Join wd name) (joinSlash f.2)⟩) := by
  have h1 : Dict.getString (multiInfo name pieces pl fs) (ascii "name") = .ok name := rfl
  have h2 : Dict.getInt (multiInfo name pieces pl fs) (ascii "piece length") = .ok pl := rfl
  have h3 : Dict.getString (multiInfo name pieces pl fs) (ascii "pieces") = .ok pieces := rfl
  have h4 : Dict.getInt (multiInfo name pieces pl fs) (ascii "length") = .err .missingKey := rfl
  have h5 : Dict.getList (multiInfo name pieces pl fs) (ascii "files") = .ok (fs.map fileInfo) := rfl
  unfold FromDict
  rw [h1, Res.ok_bind, h2, Res.ok_bind, h3, Res.ok_bind]
  unfold entriesOf
  rw [h4]
  simp only
  rw [h5]
  simp only
  rw [fromBenList_info fs h, Res.ok_bind, Res.ok_bind, List.map_map]
  rfl

/-- **C85** is false: whatever the name, the piece length, the hashes and the (non-negative) lengths of the files, if there are enough hashes the
torrent is accepted with the same path for all of its files. -/
theorem C85_refuted_accepted (name pieces wd : Bytes) (pl : Nat) (hpl : 0 < pl) (lengths : List Nat) (path : List Bytes) (hp : path ≠ [])
    (h20 : 20 ∣ pieces.length) (hn : needed lengths.sum pl ≤ pieces.length / 20) :
    ∃ ti, FromDict (multiInfo name pieces pl (lengths.map fun n : Nat => ((n : Int), path))) wd = .ok ti ∧
      ti.flist.map (fun e => (e.base.length, e.base.localPath)) = lengths.map fun n : Nat => ((n : Int), Join (Join wd name) (joinSlash path)) := by
  rw [fromDict_multi _ _ _ _ _ (by
    intro f hf
    obtain ⟨n, -, rfl⟩ := List.mem_map.mp hf
    exact hp), List.map_map]
  obtain ⟨ti, h⟩ := (C24_accept_iff_partial name pl hpl pieces
    (lengths.map ((fun f => (⟨f.1, joinSlash f.2, Join (Join wd name) (joinSlash f.2)⟩ : EntryBase)) ∘ fun n : Nat => ((n : Int), path))) (by
      intro f hf
      obtain ⟨n, -, rfl⟩ := List.mem_map.mp hf
      show (0 : Int) ≤ (n : Int)
      omega)).mpr ⟨h20, by
        have : lens (lengths.map ((fun f => (⟨f.1, joinSlash f.2, Join (Join wd name) (joinSlash f.2)⟩ : EntryBase)) ∘ fun n : Nat => ((n : Int), path))) =
            lengths := by
          unfold lens
          rw [List.map_map]
          conv => rhs; rw [← List.map_id lengths]
          apply List.map_congr_left
          intro n _
          simp [Function.comp]
        rw [this]
        exact hn⟩
  refine ⟨ti, h, ?_⟩
  obtain ⟨-, -, -, -, -, g6⟩ := newTorInfo_fields h
  have : ti.flist.map (fun e => (e.base.length, e.base.localPath)) = (ti.flist.map Entry.base).map fun b => (b.length, b.localPath) := by
    rw [List.map_map]; rfl
  rw [this, g6, List.map_map]
  rfl

/-- equal pieces make equal streams -/
theorem stream_of_pieces (pl : Nat) (hpl : 0 < pl) (x y : Bytes) (hl : x.length = y.length)
    (h : ∀ i, i < needed x.length pl → pieceOf x pl i = pieceOf y pl i) : x = y := by
  apply List.ext_getElem?
  intro j
  by_cases hj : j < x.length
  · have hi : j / pl < needed x.length pl := by
      unfold needed
      have : j / pl + 1 ≤ (x.length + pl - 1) / pl := by
        rw [Nat.le_div_iff_mul_le hpl, Nat.add_mul]
        have := Nat.div_mul_le_self j pl
        omega
      omega
    have := congrArg (fun l : Bytes => l[j % pl]?) (h _ hi)
    simp only [pieceOf] at this
    have hm := Nat.mod_lt j hpl
    rw [List.getElem?_take_of_lt hm, List.getElem?_take_of_lt hm, List.getElem?_drop, List.getElem?_drop] at this
    rwa [Nat.mul_comm, Nat.div_add_mod] at this
  · rw [List.getElem?_eq_none (by omega), List.getElem?_eq_none (by omega)]

/-- **C85**, what it costs: a torrent with two files of the same length at the same place and different contents is never complete: whatever is on
disk, the check of the pieces finds one that is missing, unless two different byte strings have the same hash. -/
theorem C85_refuted_complete (H : Bytes → Bytes) (hH : ∀ x, (H x).length = 20) (pl : Nat) (files : List EntryBase) (cs : List Bytes)
    (hcs : cs.map List.length = lens files) (ti : TorInfo) (h : Accepted pl (pieceHashes H cs.flatten pl) files ti)
    (i j : Nat) (f g : EntryBase) (hi : files[i]? = some f) (hj : files[j]? = some g) (hsame : f.localPath = g.localPath)
    (hdiff : cs[i]? ≠ cs[j]?) (fs : State) (ds : List Bytes) (hs : Stored fs files ds) :
    ∃ b0 b, Bf.NewBitfield ti.numPieces = .ok b0 ∧ Swarm.Validate H fs (openedAll ti) b0 = .ok b ∧
      (b.Complete = false ∨ ∃ x y, x ≠ y ∧ H x = H y) := by
  obtain ⟨b0, b, h1, h2, -, -, -, h6⟩ := C31_validate H pl _ files ti h fs ds hs
  refine ⟨b0, b, h1, h2, ?_⟩
  cases hb : b.Complete with
  | false => exact .inl rfl
  | true =>
    right
    have hall := h6.mp hb
    have hlen : ds.map List.length = cs.map List.length := by rw [hs.1, hcs]
    have hfl : ds.flatten.length = cs.flatten.length := by rw [List.length_flatten, List.length_flatten, hlen]
    have hne : ds.flatten ≠ cs.flatten := by
      intro heq
      have hds : ds = cs := by
        clear hs hdiff hcs h hi hj hall h6 hfl
        induction ds generalizing cs with
        | nil => cases cs with
          | nil => rfl
          | cons c cs => simp at hlen
        | cons x xs ih => cases cs with
          | nil => simp at hlen
          | cons c cs =>
            simp only [List.map_cons, List.cons.injEq] at hlen
            rw [List.flatten_cons, List.flatten_cons] at heq
            obtain ⟨e1, e2⟩ := List.append_inj heq hlen.1
            rw [e1, ih cs hlen.2 e2]
      subst hds
      have hli : i < ds.length := by
        have : i < files.length := (List.getElem?_eq_some_iff.mp hi).1
        have hl := congrArg List.length hcs
        simp only [List.length_map, lens] at hl
        omega
      have hlj : j < ds.length := by
        have : j < files.length := (List.getElem?_eq_some_iff.mp hj).1
        have hl := congrArg List.length hcs
        simp only [List.length_map, lens] at hl
        omega
      have a := hs.2 i f _ hi (List.getElem?_eq_getElem hli)
      have b := hs.2 j g _ hj (List.getElem?_eq_getElem hlj)
      rw [hsame, b] at a
      apply hdiff
      rw [List.getElem?_eq_getElem hli, List.getElem?_eq_getElem hlj]
      exact a.symm
    have hex : ∃ k, k < needed cs.flatten.length pl ∧ pieceOf ds.flatten pl k ≠ pieceOf cs.flatten pl k := by
      refine Classical.byContradiction fun hcon => hne ?_
      refine stream_of_pieces pl h.pos _ _ hfl fun k hk => ?_
      rw [hfl] at hk
      exact Classical.byContradiction fun hk' => hcon ⟨k, hk, hk'⟩
    obtain ⟨k, hk, hk'⟩ := hex
    obtain ⟨hnp, htot, -⟩ := h.np
    have hkn : k < ti.numPieces := by
      have : needed cs.flatten.length pl ≤ ti.numPieces := by
        rw [needed_le_iff _ _ _ h.pos, List.length_flatten, hcs]
        exact htot
      omega
    refine ⟨_, _, hk', ?_⟩
    rw [hall k hkn, pieceHashes_range H hH _ _ _ hk]

/-! a torrent with two files of one byte at the same place -/

/-- a stand-in for the hash function: 20 copies of the first byte -/
def firstByte (x : Bytes) : Bytes := List.replicate 20 (x.headD 0)

/-- info dictionary of a torrent with the one-byte files `n/f` and `n/d/../f`, contents 1 and 2 -/
def exShared : Dict :=
  multiInfo (ascii "n") (List.replicate 20 1 ++ List.replicate 20 2) 1 [(1, [ascii "f"]), (1, [ascii "d", ascii "..", ascii "f"])]

/-- both pieces are written with success; then the first is read -/
def writeBoth (r : Res TorInfo) : Option (Res Nat × Res Nat × Res (Nat × Bytes)) :=
  match r with
  | .ok ti =>
    some ((WritePiece firstByte (fun _ => some [0]) (openedAll ti) 0 [1] []).2,
      (WritePiece firstByte (WritePiece firstByte (fun _ => some [0]) (openedAll ti) 0 [1] []).1 (openedAll ti) 1 [2] []).2,
      ReadPiece (WritePiece firstByte (WritePiece firstByte (fun _ => some [0]) (openedAll ti) 0 [1] []).1 (openedAll ti) 1 [2] []).1
        (openedAll ti) 0 [0])
  | _ => none

/-- **C85**, how a piece gets lost: both pieces of this torrent are written without an error, and then the first one is gone. -/
theorem C85_refuted_overwritten : ∃ ti fs1 fs2, FromDict exShared (ascii "/w") = .ok ti ∧
    WritePiece firstByte (fun _ => some [0]) (openedAll ti) 0 [1] [] = (fs1, .ok 1) ∧
    WritePiece firstByte fs1 (openedAll ti) 1 [2] [] = (fs2, .ok 1) ∧ ReadPiece fs2 (openedAll ti) 0 [0] = .ok (1, [2]) := by
  have h : writeBoth (FromDict exShared (ascii "/w")) = some (.ok 1, .ok 1, .ok (1, [2])) := by decide +kernel
  cases hf : FromDict exShared (ascii "/w") with
  | ok ti =>
    rw [hf] at h
    simp only [writeBoth, Option.some.injEq, Prod.mk.injEq] at h
    exact ⟨ti, _, _, rfl, Prod.ext rfl h.1, Prod.ext rfl h.2.1, h.2.2⟩
  | _ => rw [hf] at h; cases h

/-- the hypotheses of the exact theorem are met by the two files of that torrent, whose places are the same -/
example : ∃ ti, FromDict exShared (ascii "/w") = .ok ti ∧ intAt exShared (ascii "length") = none ∧
    (∀ e ∈ ti.flist, Stays 0 (components e.base.torPath)) ∧ ti.flist.length = 2 := by
  obtain ⟨ti, h⟩ : ∃ ti, FromDict exShared (ascii "/w") = .ok ti := Res.isOk_iff (by decide +kernel)
  obtain ⟨-, -, -, -, -, g⟩ := newTorInfo_fields (by
    rw [exShared, fromDict_multi _ _ _ _ _ (by intro f hf; simp at hf; rcases hf with rfl | rfl <;> simp)] at h
    exact h)
  refine ⟨ti, h, rfl, ?_, ?_⟩
  · intro e he
    have : e.base ∈ ti.flist.map Entry.base := List.mem_map_of_mem he
    rw [g] at this
    simp only [List.map_cons, List.map_nil, List.mem_cons, List.not_mem_nil, or_false] at this
    rcases this with h | h
    · rw [h, show components (joinSlash [ascii "f"]) = [ascii "f"] by decide +kernel]
      simp [Stays, ascii]
    · rw [h, show components (joinSlash [ascii "d", ascii "..", ascii "f"]) = [ascii "d", ascii "..", ascii "f"] by decide +kernel]
      simp [Stays, ascii]
  · have := congrArg List.length g
    simpa using this

/-- and those of the theorem about different places by a torrent with the files `d/f` and `f` -/
example : ∃ ti, FromDict (multiInfo (ascii "n") (List.replicate 20 1) 4 [(1, [ascii "d", ascii "f"]), (1, [ascii "f"])]) (ascii "/w") = .ok ti ∧
    (∀ e ∈ ti.flist, Stays 0 (components e.base.torPath)) ∧ (ti.flist.map fun e => walk [] (components e.base.torPath)).Nodup := by
  obtain ⟨ti, h⟩ : ∃ ti, FromDict (multiInfo (ascii "n") (List.replicate 20 1) 4 [(1, [ascii "d", ascii "f"]), (1, [ascii "f"])]) (ascii "/w") = .ok ti :=
    Res.isOk_iff (by decide +kernel)
  have h' := h
  rw [fromDict_multi _ _ _ _ _ (by intro f hf; simp at hf; rcases hf with rfl | rfl <;> simp)] at h'
  obtain ⟨-, -, -, -, -, g⟩ := newTorInfo_fields h'
  refine ⟨ti, h, ?_, ?_⟩
  · intro e he
    have : e.base ∈ ti.flist.map Entry.base := List.mem_map_of_mem he
    rw [g] at this
    simp only [List.map_cons, List.map_nil, List.mem_cons, List.not_mem_nil, or_false] at this
    rcases this with h | h
    · rw [h, show components (joinSlash [ascii "d", ascii "f"]) = [ascii "d", ascii "f"] by decide +kernel]
      simp [Stays, ascii]
    · rw [h, show components (joinSlash [ascii "f"]) = [ascii "f"] by decide +kernel]
      simp [Stays, ascii]
  · have : (ti.flist.map fun e => walk [] (components e.base.torPath)) = (ti.flist.map Entry.base).map fun b => walk [] (components b.torPath) := by
      rw [List.map_map]; rfl
    rw [this, g]
    decide +kernel

/-- the torrent with two files at one place meets the hypotheses of `C85_refuted_complete` -/
example : ∃ ti, Accepted 1 (pieceHashes firstByte [[1], [2]].flatten 1) [⟨1, ascii "a", ascii "p"⟩, ⟨1, ascii "b", ascii "p"⟩] ti ∧
    Stored (fun _ => some [7]) [⟨1, ascii "a", ascii "p"⟩, ⟨1, ascii "b", ascii "p"⟩] [[7], [7]] := by
  obtain ⟨ti, h⟩ := (C24_accept_iff_partial (ascii "n") 1 (by decide) (pieceHashes firstByte [[1], [2]].flatten 1)
    [⟨1, ascii "a", ascii "p"⟩, ⟨1, ascii "b", ascii "p"⟩] (by decide)).mpr (by decide +kernel)
  refine ⟨ti, ⟨by decide, by decide, _, h⟩, by decide, ?_⟩
  intro k f c hf hc
  match k with
  | 0 => cases hf; cases hc; rfl
  | 1 => cases hf; cases hc; rfl
  | k + 2 => cases hc

end Verif.Torrent
