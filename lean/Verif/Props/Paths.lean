import Verif.Lemmas.Path
import Verif.Props.Info
/-
Property C34: local paths of loaded torrents (/repo/src/torrent/info/info.go:213-244).
-/
set_option autoImplicit false

namespace Verif.Torrent
open Verif.Files Verif.Bencode Verif.Bencode.Spec Verif.Path Verif.Dirs Verif.Info

/-- the steps from the working directory to a file: the torrent's name, and for torrents with a list of files the path in it -/
def stepsTo (d : Dict) (name torPath : Bytes) : List Bytes :=
  match d.lookup (ascii "length") with
  | some (.int64 _) => components name
  | _ => components name ++ components torPath

/-- **C34**, exact: with a non-empty working directory, every file of a loaded torrent is at the place reached from the working
directory by walking along the torrent's name and, for a torrent with a list of files, the path given there. -/
theorem C34_location (d : Dict) (wd : Bytes) (hwd : wd ≠ []) (ti : TorInfo) (h : FromDict d wd = .ok ti) (cwd : List Bytes) :
    ∀ e ∈ ti.flist, resolve cwd e.base.localPath = walk (resolve cwd wd) (stepsTo d ti.name e.base.torPath) := by
  obtain ⟨n, p, ps, fes, h1, h2, h3, h4, h5⟩ := fromDict_ok h
  obtain ⟨g1, -, -, -, -, g6⟩ := newTorInfo_fields h5
  intro e he
  have hmem : e.base ∈ fes := by rw [← g6]; exact List.mem_map_of_mem he
  unfold stepsTo
  rw [g1]
  unfold entriesOf at h4
  cases hl : d.lookup (ascii "length") with
  | none =>
    have hint : Dict.getInt d (ascii "length") = .err .missingKey := by simp only [Dict.getInt, Dict.get, hl]
    rw [hint] at h4
    simp only at h4
    cases hf : Dict.getList d (ascii "files") with
    | ok vs =>
      rw [hf] at h4
      simp only at h4
      obtain ⟨es, -, h4⟩ := Res.bind_eq_ok.mp h4
      simp only [Res.ok.injEq] at h4
      rw [← h4] at hmem
      obtain ⟨b, -, hb⟩ := List.mem_map.mp hmem
      rw [← hb]
      simp only [EntryBase.SetLocalPath]
      rw [resolve_join cwd _ _ (join_ne_nil _ _ hwd), resolve_join cwd _ _ hwd, walk_append]
    | _ => rw [hf] at h4; cases h4
  | some v =>
    by_cases hv : ∃ i, v = .int64 i
    · obtain ⟨i, rfl⟩ := hv
      have hint : Dict.getInt d (ascii "length") = .ok i := by simp only [Dict.getInt, Dict.get, hl]
      rw [hint] at h4
      simp only [Res.ok.injEq] at h4
      rw [← h4, List.mem_singleton] at hmem
      rw [hmem]
      simp only [EntryBase.SetLocalPath]
      rw [resolve_join cwd _ _ hwd]
    · have hint : ∃ er, Dict.getInt d (ascii "length") = .err er := by
        simp only [Dict.getInt, Dict.get, hl]
        cases v <;> first | exact ⟨_, rfl⟩ | exact absurd ⟨_, rfl⟩ hv
      obtain ⟨er, hint⟩ := hint
      rw [hint] at h4
      simp only at h4
      have hst : (match some v with
          | some (.int64 _) => components n
          | _ => components n ++ components e.base.torPath) = components n ++ components e.base.torPath := by
        cases v <;> first | rfl | exact absurd ⟨_, rfl⟩ hv
      rw [hst]
      cases hf : Dict.getList d (ascii "files") with
      | ok vs =>
        rw [hf] at h4
        simp only at h4
        obtain ⟨es, -, h4⟩ := Res.bind_eq_ok.mp h4
        simp only [Res.ok.injEq] at h4
        rw [← h4] at hmem
        obtain ⟨b, -, hb⟩ := List.mem_map.mp hmem
        rw [← hb]
        simp only [EntryBase.SetLocalPath]
        rw [resolve_join cwd _ _ (join_ne_nil _ _ hwd), resolve_join cwd _ _ hwd, walk_append]
      | _ => rw [hf] at h4; cases h4

/-- **C34** for a non-empty working directory and metadata whose names never lead above it: every file is below the working
directory.  Missing: metadata with "..", which is not rejected (`C34_refuted_dotdot`), and the empty working directory
(`C34_refuted_empty_wd`). -/
theorem C34_inside_partial (d : Dict) (wd : Bytes) (hwd : wd ≠ []) (ti : TorInfo) (h : FromDict d wd = .ok ti) (cwd : List Bytes) :
    ∀ e ∈ ti.flist, Stays 0 (stepsTo d ti.name e.base.torPath) → ∃ below, resolve cwd e.base.localPath = resolve cwd wd ++ below := by
  intro e he hs
  rw [C34_location d wd hwd ti h cwd e he]
  exact stays_walk _ _ hs

theorem stays_of_names (n : Nat) (ws : List Bytes) (h : ascii ".." ∉ ws) : Stays n ws := by
  induction ws generalizing n with
  | nil => trivial
  | cons w ws ih =>
    simp only [List.mem_cons, not_or] at h
    rw [Stays]
    split
    · exact ih n h.2
    · rw [if_neg (Ne.symm h.1)]; exact ih (n + 1) h.2

/-- **C34**, in particular for metadata without ".." components. -/
theorem C34_no_dotdot_partial (d : Dict) (wd : Bytes) (hwd : wd ≠ []) (ti : TorInfo) (h : FromDict d wd = .ok ti) (cwd : List Bytes) :
    ∀ e ∈ ti.flist, ascii ".." ∉ components ti.name → ascii ".." ∉ components e.base.torPath →
      ∃ below, resolve cwd e.base.localPath = resolve cwd wd ++ below := by
  intro e he h1 h2
  refine C34_inside_partial d wd hwd ti h cwd e he (stays_of_names _ _ ?_)
  unfold stepsTo
  split
  · exact h1
  · simp [h1, h2]

/-- the local paths of a loaded torrent, as a test that can be evaluated -/
def localPaths (r : Res TorInfo) : Option (List Bytes) :=
  match r with
  | .ok ti => some (ti.flist.map fun e => e.base.localPath)
  | _ => none

theorem localPaths_some {r : Res TorInfo} {ps : List Bytes} (h : localPaths r = some ps) :
    ∃ ti, r = .ok ti ∧ ti.flist.map (fun e => e.base.localPath) = ps := by
  cases r <;> simp [localPaths] at h
  exact ⟨_, rfl, h⟩

/-- **C34** is false: a file name in a torrent can lead anywhere, e.g. to /etc/x from the working directory /w. -/
theorem C34_refuted_dotdot : ∃ d ti e, FromDict d (ascii "/w") = .ok ti ∧ e ∈ ti.flist ∧ e.base.localPath = ascii "/etc/x" ∧
    ∀ cwd, ¬ ∃ below, resolve cwd e.base.localPath = resolve cwd (ascii "/w") ++ below := by
  obtain ⟨ti, h, hp⟩ := localPaths_some (r := FromDict (multiInfo (ascii "n") (ascii "AAAAAAAAAAAAAAAAAAAA") 4
    [(1, [ascii "..", ascii "..", ascii "etc", ascii "x"])]) (ascii "/w")) (ps := [ascii "/etc/x"]) (by decide +kernel)
  obtain ⟨e, tl, he, hl, -⟩ := List.map_eq_cons_iff.mp hp
  refine ⟨_, ti, e, h, by rw [he]; simp, hl, ?_⟩
  rintro cwd ⟨below, hb⟩
  have h1 : resolve cwd e.base.localPath = [ascii "etc", ascii "x"] := by
    rw [hl]; exact (show resolve cwd (ascii "/etc/x") = resolve [] (ascii "/etc/x") from rfl).trans (by decide +kernel)
  have h2 : resolve cwd (ascii "/w") = [ascii "w"] :=
    (show resolve cwd (ascii "/w") = resolve [] (ascii "/w") from rfl).trans (by decide +kernel)
  rw [h1, h2] at hb
  have := (List.cons.inj hb).1
  revert this
  decide

/-- **C34** is false for an empty working directory (meaning the current one): an absolute name is used as it is. -/
theorem C34_refuted_empty_wd : ∃ d ti e, FromDict d [] = .ok ti ∧ e ∈ ti.flist ∧ e.base.localPath = ascii "/etc/x" ∧
    ¬ ∃ below, resolve [ascii "home"] e.base.localPath = [ascii "home"] ++ below := by
  obtain ⟨ti, h, hp⟩ := localPaths_some (r := FromDict (singleInfo (ascii "/etc/x") (ascii "AAAAAAAAAAAAAAAAAAAA") 4 1) [])
    (ps := [ascii "/etc/x"]) (by decide +kernel)
  obtain ⟨e, tl, he, hl, -⟩ := List.map_eq_cons_iff.mp hp
  refine ⟨_, ti, e, h, by rw [he]; simp, hl, ?_⟩
  rintro ⟨below, hb⟩
  have h1 : resolve [ascii "home"] e.base.localPath = [ascii "etc", ascii "x"] := by rw [hl]; decide +kernel
  rw [h1] at hb
  have := (List.cons.inj hb).1
  revert this
  decide

/-- the hypotheses of the positive theorems are met by a torrent with a harmless ".." -/
example : ∃ ti, FromDict (multiInfo (ascii "n") (ascii "AAAAAAAAAAAAAAAAAAAA") 4 [(1, [ascii "a", ascii "..", ascii "b"])]) (ascii "w/x") = .ok ti ∧
    Stays 0 (components (ascii "n") ++ components (ascii "a/../b")) ∧ ti.flist.map (fun e => e.base.localPath) = [ascii "w/x/n/b"] := by
  obtain ⟨ti, h, hp⟩ := localPaths_some (r := FromDict (multiInfo (ascii "n") (ascii "AAAAAAAAAAAAAAAAAAAA") 4
    [(1, [ascii "a", ascii "..", ascii "b"])]) (ascii "w/x")) (ps := [ascii "w/x/n/b"]) (by decide +kernel)
  refine ⟨ti, h, ?_, hp⟩
  have e : components (ascii "n") ++ components (ascii "a/../b") = [ascii "n", ascii "a", ascii "..", ascii "b"] := by decide +kernel
  rw [e]
  simp [Stays, ascii]

end Verif.Torrent
