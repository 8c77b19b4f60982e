import Verif.Lemmas.FileIO
import Verif.Props.Layout
/-
Properties C26 – C29: piece storage and preparation of files.
-/
set_option autoImplicit false

namespace Verif.FileIO
open Verif.Files Verif.FS Verif.Layout

/-! ## C28, C29: OCAT -/

/-- **C28** (partial: spurious failures to open an existing file are excluded, see `C28_refuted_open_failure`).
If opening an existing file does not fail (any other system call may), then after OCAT succeeded: the file
has the wanted length, it starts with the old data, behind the old data there are only zeros, no other file changed.
Moreover OCAT never panics and never runs forever. -/
theorem C28_ocat_partial (path : Bytes) (n : Nat) (fs fs' : State) (r : Res Unit)
    (h : Exec false (OCAT path n) fs (.done r) fs') :
    (r = .ok () → ∃ c, fs' path = some c ∧ c.length = n ∧
      (∀ o, fs path = some o → c.take o.length = o.take n ∧ ∀ x ∈ c.drop o.length, x = 0) ∧
      (fs path = none → ∀ x ∈ c, x = 0) ∧
      ∀ p, p ≠ path → fs' p = fs p) ∧
    r ≠ .panic ∧ r ≠ .timeout := by
  have hend := ocat_end path n fs fs' _ h
  constructor
  · rintro rfl
    rcases hend with ⟨-, hne, -⟩ | ⟨c', rfl, -, hok, -⟩
    · exact absurd rfl hne
    · have := hok rfl
      subst this
      refine ⟨_, set_get _ _ _, prepared_length _ _, ?_, ?_, ?_⟩
      · intro o ho
        have : old fs path = o := by unfold old; rw [ho]; rfl
        rw [this]
        unfold prepared
        rcases Nat.le_total n o.length with hle | hle
        · rw [show n - o.length = 0 by omega]
          simp only [List.replicate_zero, List.append_nil]
          constructor
          · rw [List.take_of_length_le (by rw [List.length_take]; omega)]
          · rw [List.drop_eq_nil_of_le (by rw [List.length_take]; omega)]; simp
        · rw [List.take_of_length_le hle]
          constructor
          · rw [List.take_left]
          · rw [List.drop_left]
            intro x hx; exact (List.mem_replicate.mp hx).2
      · intro ho x hx
        have : old fs path = [] := by unfold old; rw [ho]; rfl
        rw [this] at hx
        unfold prepared at hx
        simp only [List.take_nil, List.nil_append] at hx
        exact (List.mem_replicate.mp hx).2
      · intro p hp
        unfold State.set; rw [if_neg hp]
  · rcases hend with ⟨-, -, h1, h2⟩ | ⟨c', -, -, -, h1, h2⟩
    · exact ⟨fun e => h1 (by rw [e]), fun e => h2 (by rw [e])⟩
    · exact ⟨fun e => h1 (by rw [e]), fun e => h2 (by rw [e])⟩

/-- **C28**, OCAT can succeed from every state: the hypothesis of `C28_ocat_partial` with `r = ok` is always attainable. -/
theorem C28_can_succeed (path : Bytes) (n : Nat) (fs : State) :
    ∃ fs', Exec false (OCAT path n) fs (.done (.ok ())) fs' :=
  ⟨_, ocat_run false path n fs⟩

example : ∃ fs', Exec false (OCAT (ascii "f") (5 : Nat)) (fun p => if p = ascii "f" then some [1, 2, 3] else none)
    (.done (.ok ())) fs' ∧ fs' (ascii "f") = some [1, 2, 3, 0, 0] :=
  ⟨_, ocat_run false _ 5 _, by decide +kernel⟩

/-- **C28**, repeating: a second successful OCAT changes nothing. -/
theorem C28_idempotent (path : Bytes) (n : Nat) (fs fs' fs'' : State)
    (h : Exec false (OCAT path n) fs (.done (.ok ())) fs') (h' : Exec false (OCAT path n) fs' (.done (.ok ())) fs'') :
    fs'' = fs' := by
  rcases ocat_end path n fs fs' _ h with ⟨-, hne, -⟩ | ⟨c, rfl, -, hok, -⟩
  · exact absurd rfl hne
  · rcases ocat_end path n _ fs'' _ h' with ⟨-, hne, -⟩ | ⟨c', rfl, -, hok', -⟩
    · exact absurd rfl hne
    · rw [hok' rfl, hok rfl]
      have : old (fs.set path (prepared (old fs path) n)) path = prepared (old fs path) n := by
        unfold old; rw [set_get]; rfl
      rw [this, prepared_idem, set_set]

example : ∃ fs' fs'', Exec false (OCAT (ascii "f") (5 : Nat)) (fun _ => none) (.done (.ok ())) fs' ∧
    Exec false (OCAT (ascii "f") (5 : Nat)) fs' (.done (.ok ())) fs'' :=
  ⟨_, _, ocat_run false _ 5 _, ocat_run false _ 5 _⟩

/-- **C28**, negative lengths never succeed (they end in an error or a panic). -/
theorem C28_negative (path : Bytes) (n : Int) (hn : n < 0) (sp : Bool) (fs fs' : State) :
    ¬ Exec sp (OCAT path n) fs (.done (.ok ())) fs' := by
  have happ : ∀ (m : Int), m < 0 → ∀ fs fs', ¬ Exec sp (AppendZeros path m) fs (.done (.ok ())) fs' := by
    intro m hm fs fs' h
    unfold AppendZeros at h
    cases h with
    | size_ok _ _ _ _ _ c hc h =>
      simp only at h
      rw [appendLoop, if_neg (by omega), if_neg (by unfold writeSize; omega), if_pos hm] at h
      cases h
    | size_fail _ _ _ _ _ h => cases h
  have hchk : ∀ fs fs', ¬ Exec sp (checkSize path n) fs (.done (.ok ())) fs' := by
    intro fs fs' h
    unfold checkSize at h
    cases h with
    | size_ok _ _ _ _ _ c hc h =>
      simp only at h
      rw [if_neg (by omega), if_pos (by omega)] at h
      cases h with
      | truncate_ok _ m _ _ _ _ c hc h => omega
      | truncate_fail _ _ _ _ _ _ h => cases h
    | size_fail _ _ _ _ _ h => cases h
  intro h
  unfold OCAT at h
  cases h with
  | open_ok _ _ _ _ _ c hc h => exact hchk _ _ h
  | open_fail _ _ _ _ _ hc h =>
    simp only [Bool.false_eq_true, if_false] at h
    rcases h.bind_inv with ⟨e, -⟩ | ⟨r, mid, h1, h2⟩
    · cases e
    · cases r with
      | ok u => exact hchk _ _ h2
      | err e => cases h2
      | panic => cases h2
      | timeout => cases h2

example : (-3 : Int) < 0 := by decide

/-- **C28 refuted** if opening an existing file may fail: OCAT treats every failure to open as "does not exist" and
truncates the file, so a transient error (e.g. too many open files) destroys the data although OCAT reports success. -/
theorem C28_refuted_open_failure :
    ∃ fs', Exec true (OCAT (ascii "f") (1 : Nat)) (fun _ => some [7]) (.done (.ok ())) fs' ∧ fs' (ascii "f") = some [0] := by
  refine ⟨((State.set (fun _ => some [7]) (ascii "f") []).set (ascii "f") ([] ++ List.replicate 1 0)).set (ascii "f")
    (prepared ([] ++ List.replicate 1 0) 1), ?_, ?_⟩
  · refine .open_fail _ _ _ _ _ (.inr rfl) ?_
    simp only [Bool.false_eq_true, if_false]
    exact Exec.bind (r := .ok ()) (.mkdir _ _ _ _ _ true (.trunc_ok _ _ _ _ _ (appendZeros_run true _ 1 [] _ (set_get _ _ _))))
      (checkSize_run true _ 1 ([] ++ List.replicate 1 0) _ (set_get _ _ _))
  · decide +kernel

/-- runs of OCAT that did not succeed: the process died in them or they returned an error -/
inductive Attempts (path : Bytes) (n : Nat) : State → State → Prop
  | none (fs : State) : Attempts path n fs fs
  | more (fs fs1 fs2 : State) (o : Outcome) : o ≠ .done (.ok ()) → Exec false (OCAT path n) fs o fs1 →
      Attempts path n fs1 fs2 → Attempts path n fs fs2

theorem attempt_inv (path : Bytes) (n : Nat) (fs fs1 : State) (o : Outcome) (h : Exec false (OCAT path n) fs o fs1) :
    prepared (old fs1 path) n = prepared (old fs path) n ∧ ∀ p, p ≠ path → fs1 p = fs p := by
  rcases ocat_end path n fs fs1 o h with ⟨rfl, -⟩ | ⟨c, rfl, hp, -⟩
  · exact ⟨rfl, fun _ _ => rfl⟩
  · constructor
    · have : old (fs.set path c) path = c := by unfold old; rw [set_get]; rfl
      rw [this, hp]
    · intro p hp
      unfold State.set; rw [if_neg hp]

/-- **C29**.  Let OCAT be interrupted any number of times, each time at any point (also inside of a write) or by any
failing system call.  When it finally succeeds, the state is the same as if it had succeeded at once. -/
theorem C29_crash_recovery (path : Bytes) (n : Nat) (fs fs1 fs2 fs3 : State) (ha : Attempts path n fs fs1)
    (h2 : Exec false (OCAT path n) fs1 (.done (.ok ())) fs2)
    (h3 : Exec false (OCAT path n) fs (.done (.ok ())) fs3) : fs2 = fs3 := by
  have hinv : prepared (old fs1 path) n = prepared (old fs path) n ∧ ∀ p, p ≠ path → fs1 p = fs p := by
    clear h2 h3
    induction ha with
    | none => exact ⟨rfl, fun _ _ => rfl⟩
    | more fs a b o ho he _ ih =>
      have := attempt_inv path n fs a o he
      exact ⟨ih.1.trans this.1, fun p hp => (ih.2 p hp).trans (this.2 p hp)⟩
  rcases ocat_end path n fs1 fs2 _ h2 with ⟨-, hne, -⟩ | ⟨c, rfl, -, hok, -⟩
  · exact absurd rfl hne
  · rcases ocat_end path n fs fs3 _ h3 with ⟨-, hne, -⟩ | ⟨c', rfl, -, hok', -⟩
    · exact absurd rfl hne
    · rw [hok rfl, hok' rfl, hinv.1]
      funext p
      unfold State.set
      split
      · rfl
      · rename_i hp; exact hinv.2 p hp

/-- a crash in the middle of the first write -/
example : ∃ fs1 fs2 fs3, Attempts (ascii "f") 5 (fun _ => some [9]) fs1 ∧ fs1 (ascii "f") = some [9, 0, 0] ∧
    Exec false (OCAT (ascii "f") (5 : Nat)) fs1 (.done (.ok ())) fs2 ∧
    Exec false (OCAT (ascii "f") (5 : Nat)) (fun _ => some [9]) (.done (.ok ())) fs3 := by
  refine ⟨State.set (fun _ => some [9]) (ascii "f") (writeAt [9] 1 ((List.replicate 4 0).take 2)), _, _,
    .more _ _ _ .crashed (by simp) ?_ (.none _), ?_, ocat_run false _ 5 _, ocat_run false _ 5 _⟩
  · refine .open_ok _ _ _ _ _ [9] rfl (.size_ok _ _ _ _ _ [9] rfl ?_)
    refine .size_ok _ _ _ _ _ [9] rfl ?_
    exact .write_crash _ _ _ _ _ [9] 2 rfl
  · decide +kernel

/-! ## preparing all files of a torrent -/

theorem ocatAll_end (es : List Entry) (hn : ∀ e ∈ es, 0 ≤ e.base.length)
    (hd : (es.map fun e => e.base.localPath).Nodup) (fs fs' : State) (o : Outcome)
    (h : Exec false (OCATAll es) fs o fs') :
    (∀ e ∈ es, prepared (old fs' e.base.localPath) e.base.length.toNat =
      prepared (old fs e.base.localPath) e.base.length.toNat) ∧
    (∀ p, (∀ e ∈ es, p ≠ e.base.localPath) → fs' p = fs p) ∧
    (o = .done (.ok ()) → ∀ e ∈ es, fs' e.base.localPath =
      some (prepared (old fs e.base.localPath) e.base.length.toNat)) ∧
    o ≠ .done .panic ∧ o ≠ .done .timeout := by
  induction es generalizing fs with
  | nil =>
    rw [OCATAll] at h
    cases h with
    | ret => exact ⟨by simp, fun _ _ => rfl, by simp, by simp, by simp⟩
    | crash => exact ⟨by simp, fun _ _ => rfl, by simp, by simp, by simp⟩
  | cons e es ih =>
    have hlen : e.base.length = ((e.base.length.toNat : Nat) : Int) := by
      have := hn e (by simp); omega
    rw [List.map_cons, List.nodup_cons] at hd
    have hne : ∀ x ∈ es, x.base.localPath ≠ e.base.localPath := by
      intro x hx heq
      exact hd.1 (List.mem_map.mpr ⟨x, hx, heq⟩)
    -- what one run of OCAT on the first file says about all files
    have first : ∀ (o : Outcome) (mid : State), Exec false (OCAT e.base.localPath e.base.length) fs o mid →
        prepared (old mid e.base.localPath) e.base.length.toNat = prepared (old fs e.base.localPath) e.base.length.toNat ∧
        (∀ p, p ≠ e.base.localPath → mid p = fs p) ∧
        (o = .done (.ok ()) → mid e.base.localPath = some (prepared (old fs e.base.localPath) e.base.length.toNat)) ∧
        o ≠ .done .panic ∧ o ≠ .done .timeout := by
      intro o mid hx
      rw [hlen] at hx
      have := attempt_inv _ _ _ _ _ hx
      refine ⟨this.1, this.2, ?_, ?_⟩
      · rintro rfl
        rcases ocat_end _ _ _ _ _ hx with ⟨-, hne, -⟩ | ⟨c, rfl, -, hok, -⟩
        · exact absurd rfl hne
        · rw [hok rfl, set_get]
      · rcases ocat_end _ _ _ _ _ hx with ⟨-, -, h1, h2⟩ | ⟨c, -, -, -, h1, h2⟩
        · exact ⟨h1, h2⟩
        · exact ⟨h1, h2⟩
    have oldeq : ∀ (a b : State) (p : Bytes), a p = b p → old a p = old b p := by
      intro a b p hh; unfold old; rw [hh]
    rw [OCATAll] at h
    rcases h.bind_inv with ⟨rfl, hc⟩ | ⟨r, mid, h1, h2⟩
    · obtain ⟨f1, f2, -, -⟩ := first _ _ hc
      refine ⟨?_, fun p hp => f2 p (hp e (by simp)), by simp, by simp, by simp⟩
      intro x hx
      rcases List.mem_cons.mp hx with rfl | hx
      · exact f1
      · rw [oldeq fs' fs _ (f2 _ (hne x hx))]
    · obtain ⟨f1, f2, f3, f4, f5⟩ := first _ _ h1
      cases r with
      | ok u =>
        simp only at h2
        obtain ⟨g1, g2, g3, g4⟩ := ih (fun x hx => hn x (by simp [hx])) hd.2 mid h2
        have hfix : fs' e.base.localPath = mid e.base.localPath := g2 _ (fun x hx heq => hne x hx heq.symm)
        refine ⟨?_, ?_, ?_, g4⟩
        · intro x hx
          rcases List.mem_cons.mp hx with rfl | hx
          · rw [oldeq _ _ _ hfix, f1]
          · rw [g1 x hx, oldeq _ _ _ (f2 _ (hne x hx))]
        · intro p hp
          rw [g2 p (fun x hx => hp x (by simp [hx])), f2 p (hp e (by simp))]
        · intro ho x hx
          rcases List.mem_cons.mp hx with rfl | hx
          · rw [hfix, f3 rfl]
          · rw [g3 ho x hx, oldeq _ _ _ (f2 _ (hne x hx))]
      | err er =>
        have hstate : fs' = mid ∧ o ≠ .done (.ok ()) ∧ o ≠ .done .panic ∧ o ≠ .done .timeout := by
          cases h2 with
          | ret => exact ⟨rfl, by simp, by simp, by simp⟩
          | crash => exact ⟨rfl, by simp, by simp, by simp⟩
        obtain ⟨rfl, ho, hp⟩ := hstate
        refine ⟨?_, fun p hp => f2 p (hp e (by simp)), fun h => absurd h ho, hp⟩
        intro x hx
        rcases List.mem_cons.mp hx with rfl | hx
        · exact f1
        · rw [oldeq fs' fs _ (f2 _ (hne x hx))]
      | panic => exact absurd rfl f4
      | timeout => exact absurd rfl f5

/-- **C29** for all files of a torrent with distinct local paths: after a crash anywhere in `OCATAll`, a successful
`OCATAll` ends in the same state as an undisturbed one. -/
theorem C29_crash_recovery_all (es : List Entry) (hn : ∀ e ∈ es, 0 ≤ e.base.length)
    (hd : (es.map fun e => e.base.localPath).Nodup) (fs fs1 fs2 fs3 : State) (o : Outcome)
    (h1 : Exec false (OCATAll es) fs o fs1) (h2 : Exec false (OCATAll es) fs1 (.done (.ok ())) fs2)
    (h3 : Exec false (OCATAll es) fs (.done (.ok ())) fs3) : fs2 = fs3 := by
  obtain ⟨a1, a2, -⟩ := ocatAll_end es hn hd fs fs1 o h1
  obtain ⟨-, b2, b3, -⟩ := ocatAll_end es hn hd fs1 fs2 _ h2
  obtain ⟨-, c2, c3, -⟩ := ocatAll_end es hn hd fs fs3 _ h3
  funext p
  by_cases hp : ∀ e ∈ es, p ≠ e.base.localPath
  · rw [b2 p hp, a2 p hp, c2 p hp]
  · have : ∃ e ∈ es, p = e.base.localPath := by
      apply Classical.byContradiction
      intro hcon
      apply hp
      intro e he heq
      exact hcon ⟨e, he, heq⟩
    obtain ⟨e, he, rfl⟩ := this
    rw [b3 rfl e he, c3 rfl e he, a1 e he]

theorem ocatAll_run (es : List Entry) (hn : ∀ e ∈ es, 0 ≤ e.base.length) (fs : State) :
    ∃ fs', Exec false (OCATAll es) fs (.done (.ok ())) fs' := by
  induction es generalizing fs with
  | nil => exact ⟨fs, .ret _ _⟩
  | cons e es ih =>
    have hlen : e.base.length = ((e.base.length.toNat : Nat) : Int) := by
      have := hn e (by simp); omega
    obtain ⟨fs', h'⟩ := ih (fun x hx => hn x (by simp [hx])) (fs.set e.base.localPath (prepared (old fs e.base.localPath) e.base.length.toNat))
    refine ⟨fs', ?_⟩
    rw [OCATAll]
    refine Exec.bind (r := .ok ()) ?_ h'
    rw [hlen]
    exact ocat_run false _ _ fs

/-- the three files of the layout examples with piece length 4 -/
def exEntries : List Entry := entriesFrom 4 0 exFiles

example : (∀ e ∈ exEntries, 0 ≤ e.base.length) ∧ (exEntries.map fun e => e.base.localPath).Nodup ∧
    ∃ fs1, Exec false (OCATAll exEntries) (fun _ => none) .crashed fs1 :=
  ⟨by decide +kernel, by decide +kernel, _, .crash _ _⟩

/-! ## C26, C27: ReadPiece and WritePiece -/

/-- the files of a torrent are on disk with the contents `cs`, which have the right lengths -/
def Stored (fs : State) (files : List EntryBase) (cs : List Bytes) : Prop :=
  cs.map List.length = lens files ∧
  ∀ (k : Nat) (f : EntryBase) (c : Bytes), files[k]? = some f → cs[k]? = some c → fs f.localPath = some c

/-- a torrent the client accepted: non-negative lengths, positive piece length -/
structure Accepted (pl : Nat) (hashes : Bytes) (files : List EntryBase) (ti : TorInfo) : Prop where
  pos : 0 < pl
  nonneg : ∀ f ∈ files, 0 ≤ f.length
  made : ∃ name, NewTorInfo name pl hashes files = .ok ti

theorem Accepted.np {pl : Nat} {hashes : Bytes} {files : List EntryBase} {ti : TorInfo} (h : Accepted pl hashes files ti) :
    ti.numPieces = hashes.length / 20 ∧ total (lens files) ≤ ti.numPieces * pl ∧ ti.flist = entriesFrom pl 0 files := by
  obtain ⟨name, hm⟩ := h.made
  obtain ⟨h20, hn⟩ := (C24_accept_iff_partial name pl h.pos hashes files h.nonneg).mp ⟨ti, hm⟩
  rw [needed_le_iff _ _ _ h.pos] at hn
  obtain ⟨pm, -, -, -, h4⟩ := newTorInfo_ok name pl h.pos hashes files h.nonneg (Nat.mod_eq_zero_of_dvd h20) hn
  rw [h4] at hm
  cases hm
  exact ⟨rfl, hn, rfl⟩

theorem Accepted.locs {pl : Nat} {hashes : Bytes} {files : List EntryBase} {ti : TorInfo} (h : Accepted pl hashes files ti)
    (i : Nat) (hi : i < ti.numPieces) :
    ∃ locs, ti.PieceLookup i = .ok locs ∧ Consec (lens files) (i * pl) locs (covered pl (total (lens files)) i) := by
  obtain ⟨name, hm⟩ := h.made
  obtain ⟨h20, hn⟩ := (C24_accept_iff_partial name pl h.pos hashes files h.nonneg).mp ⟨ti, hm⟩
  rw [needed_le_iff _ _ _ h.pos] at hn
  obtain ⟨pm, -, h2, h3, h4⟩ := newTorInfo_ok name pl h.pos hashes files h.nonneg (Nat.mod_eq_zero_of_dvd h20) hn
  rw [h4] at hm
  cases hm
  simp only at hi
  have hpm : pm[i]? = some pm[i] := List.getElem?_eq_getElem (by omega)
  refine ⟨pm[i], ?_, h3 i _ hpm⟩
  unfold TorInfo.PieceLookup
  simp only [Int.toNat_natCast]
  rw [if_neg (by omega), if_neg (by omega), hpm]

theorem Accepted.hash {pl : Nat} {hashes : Bytes} {files : List EntryBase} {ti : TorInfo} (h : Accepted pl hashes files ti)
    (i : Nat) (hi : i < ti.numPieces) : ti.PieceHash i = .ok (range hashes (20 * i) 20) := by
  obtain ⟨name, hm⟩ := h.made
  exact ((C25_piece_hash name pl hashes files ti hm i).1 i rfl hi).1

theorem Accepted.onDisk {pl : Nat} {hashes : Bytes} {files : List EntryBase} {ti : TorInfo} (h : Accepted pl hashes files ti)
    {fs : State} {cs : List Bytes} (hs : Stored fs files cs) : OnDisk fs (openedAll ti) files cs := by
  obtain ⟨-, -, hfl⟩ := h.np
  have hbase : ∀ k : Nat, (ti.flist[k]?).map Entry.base = files[k]? := by
    intro k
    rw [hfl, entriesFrom_get]
    cases files[k]? with
    | none => rfl
    | some f =>
      simp only [Option.map_some]
      congr 1
      unfold entryAt; split
      · rfl
      · split <;> rfl
  refine ⟨hbase, hs.1, ?_⟩
  intro k f c hf hc
  refine ⟨hs.2 k f c hf hc, ?_⟩
  have := hbase k
  rw [hf] at this
  cases he : ti.flist[k]? with
  | none => rw [he] at this; cases this
  | some e =>
    rw [he] at this
    simp only [Option.map_some, Option.some.injEq] at this
    rw [← this]
    exact List.mem_map.mpr ⟨e, List.mem_of_getElem? he, rfl⟩

theorem covered_range (x : Bytes) (pl i : Nat) :
    range x (i * pl) (covered pl x.length i - i * pl) = pieceOf x pl i ∧
    covered pl x.length i - i * pl = (pieceOf x pl i).length := by
  have hmul : (i + 1) * pl = i * pl + pl := by rw [Nat.add_mul]; omega
  have hl : covered pl x.length i - i * pl = (pieceOf x pl i).length := by
    rw [pieceOf_length]; unfold covered; rw [hmul]; omega
  refine ⟨?_, hl⟩
  rw [hl, pieceOf_length]
  unfold range pieceOf
  rw [← List.length_drop, List.take_eq_take_iff]
  omega

/-- **C26**, reading: for every piece `ReadPiece` returns exactly the bytes of the piece in the concatenated files, at
the start of the buffer, and leaves the rest of the buffer alone. -/
theorem C26_read (pl : Nat) (hashes : Bytes) (files : List EntryBase) (ti : TorInfo) (h : Accepted pl hashes files ti)
    (fs : State) (cs : List Bytes) (hs : Stored fs files cs) (i : Nat) (hi : i < ti.numPieces) (buf : Bytes)
    (hb : (pieceOf cs.flatten pl i).length ≤ buf.length) :
    ReadPiece fs (openedAll ti) i buf = .ok ((pieceOf cs.flatten pl i).length,
      pieceOf cs.flatten pl i ++ buf.drop (pieceOf cs.flatten pl i).length) := by
  obtain ⟨locs, h1, h2⟩ := h.locs i hi
  have hdisk := h.onDisk hs
  have hlen : total (lens files) = cs.flatten.length := by
    unfold total; rw [← hs.1, List.length_flatten]
  rw [hlen, ← hs.1] at h2
  obtain ⟨e1, e2⟩ := covered_range cs.flatten pl i
  have hr := readLoop_eq hdisk h2 0 buf (by omega)
  rw [e1, e2] at hr
  unfold ReadPiece
  have h1' : (openedAll ti).torInfo.PieceLookup i = .ok locs := h1
  rw [h1']
  simp only [Res.ok_bind]
  rw [hr]
  simp [splice]

/-- **C26**, writing: if the data has the size of the piece and the recorded hash, `WritePiece` succeeds, replaces the
piece in the concatenated files, and touches no other file. -/
theorem C26_write (H : Bytes → Bytes) (pl : Nat) (hashes : Bytes) (files : List EntryBase) (ti : TorInfo)
    (h : Accepted pl hashes files ti) (hp : (files.map EntryBase.localPath).Nodup) (fs : State) (cs : List Bytes)
    (hs : Stored fs files cs) (i : Nat) (hi : i < ti.numPieces) (d spare : Bytes) (hh : H d = range hashes (20 * i) 20)
    (hl : d.length = (pieceOf cs.flatten pl i).length) :
    ∃ fs' cs', WritePiece H fs (openedAll ti) i d spare = (fs', .ok d.length) ∧ Stored fs' files cs' ∧
      pieceOf cs'.flatten pl i = d ∧ (∀ j, j ≠ i → pieceOf cs'.flatten pl j = pieceOf cs.flatten pl j) ∧
      ∀ p, p ∉ files.map EntryBase.localPath → fs' p = fs p := by
  obtain ⟨locs, h1, h2⟩ := h.locs i hi
  have hdisk := h.onDisk hs
  have hlen : total (lens files) = cs.flatten.length := by
    unfold total; rw [← hs.1, List.length_flatten]
  rw [hlen, ← hs.1] at h2
  obtain ⟨e1, e2⟩ := covered_range cs.flatten pl i
  obtain ⟨fs', cs', w1, w2, w3, w4⟩ := writeLoop_eq hdisk hp (d ++ spare) h2 0 (by rw [List.length_append]; omega)
  rw [e2, ← hl] at w1 w3
  have hr : range (d ++ spare) 0 d.length = d := by unfold range; simp
  rw [hr] at w3
  have hcs' : Stored fs' files cs' := ⟨w2.lens, fun k f c hf hc => (w2.disk k f c hf hc).1⟩
  have h1' : (openedAll ti).torInfo.PieceLookup i = .ok locs := h1
  have hh' : (openedAll ti).torInfo.PieceHash i = .ok (range hashes (20 * i) 20) := h.hash i hi
  refine ⟨fs', cs', ?_, hcs', ?_, ?_, w4⟩
  · unfold WritePiece
    rw [h1', hh']
    simp only
    rw [if_neg (by simp [hh]), w1]
    simp
  · by_cases hle : i * pl ≤ cs.flatten.length
    · rw [w3, pieceOf_splice_same _ _ _ _ hl hle]
    · have : d = [] := by
        apply List.eq_nil_of_length_eq_zero
        rw [hl, pieceOf_length]; omega
      subst this
      rw [w3, splice_nil]
      apply List.eq_nil_of_length_eq_zero
      rw [← hl]; rfl
  · intro j hj
    by_cases hle : i * pl ≤ cs.flatten.length
    · rw [w3, pieceOf_splice_other _ _ _ _ _ hl hle (Ne.symm hj)]
    · have : d = [] := by
        apply List.eq_nil_of_length_eq_zero
        rw [hl, pieceOf_length]; omega
      subst this
      rw [w3, splice_nil]

/-- an array of pieces: the specification of the store -/
def update (A : Nat → Bytes) (i : Nat) (d : Bytes) : Nat → Bytes := fun j => if j = i then d else A j

/-- the array after a history of writes -/
def replay (A : Nat → Bytes) : List (Nat × Bytes) → (Nat → Bytes)
  | [] => A
  | (i, d) :: ops => replay (update A i d) ops

/-- run a history of writes on the model -/
def runWrites (H : Bytes → Bytes) (fio : FileIO) : List (Nat × Bytes) → State → State × Bool
  | [], fs => (fs, true)
  | (i, d) :: ops, fs =>
    match WritePiece H fs fio i d [] with
    | (fs', .ok _) => runWrites H fio ops fs'
    | (fs', _) => (fs', false)

/-- **C26**, histories: over any history of writes of piece-sized data with the recorded hash, the files behave like an
array of pieces: every write succeeds, and afterwards `ReadPiece(j)` returns the last data written to piece `j`, or what was
there before if piece `j` was not written.  All pieces keep their size. -/
theorem C26_array (H : Bytes → Bytes) (pl : Nat) (hashes : Bytes) (files : List EntryBase) (ti : TorInfo)
    (h : Accepted pl hashes files ti) (hp : (files.map EntryBase.localPath).Nodup) (fs : State) (cs : List Bytes)
    (hs : Stored fs files cs) (ops : List (Nat × Bytes))
    (hops : ∀ op ∈ ops, op.1 < ti.numPieces ∧ H op.2 = range hashes (20 * op.1) 20 ∧
      op.2.length = (pieceOf cs.flatten pl op.1).length) :
    ∃ fs', runWrites H (openedAll ti) ops fs = (fs', true) ∧
      (∀ (j : Nat) (buf : Bytes), j < ti.numPieces → pl ≤ buf.length →
        ReadPiece fs' (openedAll ti) j buf = .ok ((replay (pieceOf cs.flatten pl) ops j).length,
          replay (pieceOf cs.flatten pl) ops j ++ buf.drop (replay (pieceOf cs.flatten pl) ops j).length)) ∧
      ∀ p, p ∉ files.map EntryBase.localPath → fs' p = fs p := by
  have key : ∀ (ops : List (Nat × Bytes)) (fs : State) (ds : List Bytes) (A : Nat → Bytes), Stored fs files ds →
      (∀ j, A j = pieceOf ds.flatten pl j) →
      (∀ op ∈ ops, op.1 < ti.numPieces ∧ H op.2 = range hashes (20 * op.1) 20 ∧
        op.2.length = (pieceOf cs.flatten pl op.1).length) → ds.flatten.length = cs.flatten.length →
      ∃ fs' ds', runWrites H (openedAll ti) ops fs = (fs', true) ∧ Stored fs' files ds' ∧
        (∀ j, replay A ops j = pieceOf ds'.flatten pl j) ∧ ∀ p, p ∉ files.map EntryBase.localPath → fs' p = fs p := by
    intro ops
    induction ops with
    | nil => intro fs ds A hs hA _ _; exact ⟨fs, ds, rfl, hs, hA, fun _ _ => rfl⟩
    | cons op ops ih =>
      obtain ⟨i, d⟩ := op
      intro fs ds A hs hA hops hlen
      obtain ⟨h1, h2, h3⟩ := hops (i, d) (by simp)
      simp only at h1 h2 h3
      obtain ⟨fs1, ds1, w1, w2, w3, w4, w5⟩ := C26_write H pl hashes files ti h hp fs ds hs i h1 d [] h2
        (by rw [h3, pieceOf_length, pieceOf_length, hlen])
      have hlen1 : ds1.flatten.length = cs.flatten.length := by
        rw [← hlen, List.length_flatten, List.length_flatten, w2.1, hs.1]
      obtain ⟨fs', ds', g1, g2, g3, g4⟩ := ih fs1 ds1 (update A i d) w2
        (fun j => by
          unfold update
          by_cases hj : j = i
          · subst hj; rw [if_pos rfl, w3]
          · rw [if_neg hj, w4 j hj, hA])
        (fun op hop => hops op (by simp [hop])) hlen1
      refine ⟨fs', ds', ?_, g2, g3, fun p hp => by rw [g4 p hp, w5 p hp]⟩
      rw [runWrites, w1]
      exact g1
  obtain ⟨fs', ds', g1, g2, g3, g4⟩ := key ops fs cs (pieceOf cs.flatten pl) hs (fun _ => rfl) hops rfl
  refine ⟨fs', g1, ?_, g4⟩
  intro j buf hj hbuf
  rw [g3 j]
  exact C26_read pl hashes files ti h fs' ds' g2 j hj buf (by rw [pieceOf_length]; omega)

/-- a hash function for the examples: the first byte, repeated -/
def exH (b : Bytes) : Bytes := List.replicate 20 (b.headD 0)

def exHashes : Bytes :=
  List.replicate 20 1 ++ List.replicate 20 5 ++ List.replicate 20 9 ++ List.replicate 20 13

/-- a torrent, its files on disk, and a history of two writes meet the hypotheses of C26 -/
example : (exFiles.map EntryBase.localPath).Nodup ∧ ∃ ti, Accepted 4 exHashes exFiles ti ∧
    Stored (fun p => if p = ascii "a" then some [0, 0, 0, 0, 0] else if p = ascii "e" then some [] else
      if p = ascii "b" then some [0, 0, 0, 0, 0, 0, 0, 0] else none) exFiles
      [[0, 0, 0, 0, 0], [], [0, 0, 0, 0, 0, 0, 0, 0]] ∧
    ∀ op ∈ [(1, [5, 6, 7, 8]), (3, [13])], op.1 < ti.numPieces ∧ exH op.2 = range exHashes (20 * op.1) 20 ∧
      op.2.length = (pieceOf [[0, 0, 0, 0, 0], [], [0, 0, 0, 0, 0, 0, 0, (0 : UInt8)]].flatten 4 op.1).length := by
  refine ⟨by decide +kernel, _, ⟨by decide, exFiles_nonneg, ascii "t", rfl⟩, ⟨by decide, ?_⟩, by decide +kernel⟩
  intro k f c hf hc
  match k with
  | 0 => cases hf; cases hc; decide
  | 1 => cases hf; cases hc; decide
  | 2 => cases hf; cases hc; decide
  | k + 3 => cases hc

/-- **C26**, preparation: after a successful `OCATAll` of the torrent's files the hypothesis `Stored` holds, the
contents being the old files cut or extended by zeros to their length. -/
theorem C26_prepared (pl : Nat) (hashes : Bytes) (files : List EntryBase) (ti : TorInfo) (h : Accepted pl hashes files ti)
    (hp : (files.map EntryBase.localPath).Nodup) (fs fs' : State) (hx : Exec false (OCATAll ti.flist) fs (.done (.ok ())) fs') :
    Stored fs' files (files.map fun f => prepared (old fs f.localPath) f.length.toNat) := by
  obtain ⟨-, -, hfl⟩ := h.np
  have hbase : ∀ k : Nat, (ti.flist[k]?).map Entry.base = files[k]? := by
    intro k
    rw [hfl, entriesFrom_get]
    cases files[k]? with
    | none => rfl
    | some f =>
      simp only [Option.map_some]
      congr 1
      unfold entryAt; split
      · rfl
      · split <;> rfl
  have hmap : ti.flist.map Entry.base = files := by
    apply List.ext_getElem?
    intro k
    rw [List.getElem?_map, hbase]
  have hmem : ∀ e ∈ ti.flist, e.base ∈ files := by
    intro e he
    rw [← hmap]; exact List.mem_map.mpr ⟨e, he, rfl⟩
  have hpaths : (ti.flist.map fun e => e.base.localPath) = files.map EntryBase.localPath := by
    rw [← hmap, List.map_map]; rfl
  obtain ⟨-, -, hok, -⟩ := ocatAll_end ti.flist (fun e he => h.nonneg _ (hmem e he)) (by rw [hpaths]; exact hp) fs fs' _ hx
  constructor
  · rw [List.map_map]
    apply List.map_congr_left
    intro f _
    exact prepared_length _ _
  · intro k f c hf hc
    rw [List.getElem?_map, hf] at hc
    cases hc
    have := hbase k
    rw [hf] at this
    cases he : ti.flist[k]? with
    | none => rw [he] at this; cases this
    | some e =>
      rw [he] at this
      simp only [Option.map_some, Option.some.injEq] at this
      rw [← this]
      exact hok rfl e (List.mem_of_getElem? he)

example : ∃ ti fs', Accepted 4 exHashes exFiles ti ∧ Exec false (OCATAll ti.flist) (fun _ => none) (.done (.ok ())) fs' := by
  have h : Accepted 4 exHashes exFiles _ := ⟨by decide, exFiles_nonneg, ascii "t", rfl⟩
  obtain ⟨fs', hx⟩ := ocatAll_run exEntries (by decide +kernel) (fun _ => none)
  exact ⟨_, fs', h, by rw [h.np.2.2]; exact hx⟩

/-! ### C27 -/

theorem pieceMapInner_length (fuel fidx : Nat) (fe : Entry) (pl : Int) (st st' : PMState)
    (h : pieceMapInner fuel fidx fe pl st = .ok st') : st'.pm.length = st.pm.length := by
  induction fuel generalizing st with
  | zero => rw [pieceMapInner] at h; cases h; rfl
  | succ fuel ih =>
    rw [pieceMapInner] at h
    split at h
    · split at h
      · cases h
      · split at h
        · cases h
        · split at h
          · rw [ih _ h]; simp
          · cases h; simp
    · cases h; rfl

theorem pieceMapLoop_length (np pl : Int) (es : List Entry) (k : Nat) (st st' : PMState)
    (h : pieceMapLoop np pl k es st = .ok st') : st'.pm.length = st.pm.length := by
  induction es generalizing k st with
  | nil => rw [pieceMapLoop] at h; cases h; rfl
  | cons e es ih =>
    rw [pieceMapLoop] at h
    split at h
    · cases h; rfl
    · obtain ⟨a, h1, h2⟩ := Res.bind_eq_ok.mp h
      rw [ih _ _ h2, pieceMapInner_length _ _ _ _ _ _ h1]

theorem newTorInfo_pm_length (name : Bytes) (pl : Int) (hashes : Bytes) (files : List EntryBase) (ti : TorInfo)
    (h : NewTorInfo name pl hashes files = .ok ti) : ti.pm.length = ti.numPieces := by
  unfold NewTorInfo at h
  split at h
  · cases h
  · obtain ⟨fl, h1, h⟩ := Res.bind_eq_ok.mp h
    obtain ⟨pm, h2, h⟩ := Res.bind_eq_ok.mp h
    cases h
    simp only
    unfold MakePieceMap at h2
    obtain ⟨st, h3, h4⟩ := Res.bind_eq_ok.mp h2
    split at h4
    · cases h4
    · cases h4
      rw [pieceMapLoop_length _ _ _ _ _ _ h3]
      simp

/-- **C27**.  For every torrent the client can construct, if the piece index is out of range or the SHA-1 of the data is
not the recorded hash of the piece, `WritePiece` returns an error and the file system is unchanged. -/
theorem C27_no_bad_data (H : Bytes → Bytes) (name : Bytes) (pl : Int) (hashes : Bytes) (files : List EntryBase) (ti : TorInfo)
    (hm : NewTorInfo name pl hashes files = .ok ti) (opened : List Bytes) (fs : State) (i : Int) (data spare : Bytes)
    (hbad : i < 0 ∨ (ti.numPieces : Int) ≤ i ∨ H data ≠ range hashes (20 * i.toNat) 20) :
    ∃ e, WritePiece H fs ⟨opened, ti⟩ i data spare = (fs, .err e) := by
  have hout : (i < 0 ∨ (ti.numPieces : Int) ≤ i) → ∃ e, WritePiece H fs ⟨opened, ti⟩ i data spare = (fs, .err e) := by
    intro hi
    have := C23_out_of_range ti i hi
    refine ⟨.other, ?_⟩
    unfold WritePiece
    simp only [this]
  rcases hbad with h | h | h
  · exact hout (.inl h)
  · exact hout (.inr h)
  · by_cases h0 : i < 0
    · exact hout (.inl h0)
    · by_cases h1 : (ti.numPieces : Int) ≤ i
      · exact hout (.inr h1)
      · refine ⟨.other, ?_⟩
        have hpm := newTorInfo_pm_length _ _ _ _ _ hm
        have hlook : ∃ locs, ti.PieceLookup i = .ok locs := by
          refine ⟨ti.pm[i.toNat]'(by omega), ?_⟩
          unfold TorInfo.PieceLookup
          rw [if_neg h0, if_neg (by omega), List.getElem?_eq_getElem (by omega)]
        obtain ⟨locs, hlook⟩ := hlook
        have hhash := ((C25_piece_hash name pl hashes files ti hm i).1 i.toNat (by omega) (by omega)).1
        unfold WritePiece
        simp only [hlook, hhash]
        rw [if_pos h]

example : ∃ ti, NewTorInfo (ascii "t") 4 exHashes exFiles = .ok ti ∧ exH [6, 6, 7, 8] ≠ range exHashes (20 * (1 : Int).toNat) 20 :=
  ⟨_, rfl, by decide +kernel⟩

/-- **C27**, containment: whatever happens in `WritePiece` (success, error or panic), only files of the torrent that were
opened can change. -/
theorem C27_only_torrent_files (H : Bytes → Bytes) (fs : State) (fio : FileIO) (i : Int) (data spare : Bytes) (p : Bytes)
    (hp : p ∉ fio.opened) : (WritePiece H fs fio i data spare).1 p = fs p := by
  have hloop : ∀ (full : Bytes) (locs : List PieceLocation) (off : Nat) (fs : State),
      (writeLoop fio full locs off fs).1 p = fs p := by
    intro full locs
    induction locs with
    | nil => intro off fs; rfl
    | cons l ls ih =>
      intro off fs
      rw [writeLoop]
      split
      · rfl
      · split
        · rfl
        · split
          · rename_i hmem
            split
            · rfl
            · split
              · rfl
              · rw [ih]
                unfold State.set
                rw [if_neg]
                intro heq
                exact hp (heq ▸ hmem)
          · rfl
  unfold WritePiece
  split
  · split
    · split
      · rfl
      · exact hloop _ _ _ _
    · rfl
    · rfl
    · rfl
  · rfl
  · rfl
  · rfl

example : ascii "x" ∉ [ascii "a", ascii "b"] := by decide

/-- **C62 refuted** (a torrent can record the hash of a string that is shorter or longer than
the piece): shorter data makes `WritePiece` panic, or store bytes from behind the end of the data if the slice has spare
capacity; longer data is stored only in part although `WritePiece` reports success. -/
theorem C62_refuted_other_size :
    ∃ ti, Accepted 4 exHashes exFiles ti ∧
      (WritePiece exH (fun p => if p = ascii "a" then some [0, 0, 0, 0, 0] else none) (openedAll ti) 0 [1, 2, 3] []).2
        = .panic ∧
      (WritePiece exH (fun p => if p = ascii "a" then some [0, 0, 0, 0, 0] else none) (openedAll ti) 0 [1, 2, 3] [99]).1
        (ascii "a") = some [1, 2, 3, 99, 0] ∧
      (WritePiece exH (fun p => if p = ascii "a" then some [0, 0, 0, 0, 0] else none) (openedAll ti) 0 [1, 2, 3, 4, 5] []).2
        = .ok 4 :=
  ⟨_, ⟨by decide, exFiles_nonneg, ascii "t", rfl⟩, by decide +kernel, by decide +kernel, by decide +kernel⟩

/-- **C62**, exact for data that has the recorded hash (other data: C27).  The data counts up to its capacity.  If that suffices for the
piece, the piece is set to the first bytes and the call succeeds, whatever the length of the data.  Otherwise the call panics; by then the
piece may begin with bytes of the data.  In no case is an error returned, and no other piece changes. -/
theorem C62_exact_partial (H : Bytes → Bytes) (pl : Nat) (hashes : Bytes) (files : List EntryBase) (ti : TorInfo)
    (h : Accepted pl hashes files ti) (hp : (files.map EntryBase.localPath).Nodup) (fs : State) (cs : List Bytes)
    (hs : Stored fs files cs) (i : Nat) (hi : i < ti.numPieces) (d spare : Bytes) (hh : H d = range hashes (20 * i) 20) :
    ∃ fs' cs' r m, WritePiece H fs (openedAll ti) i d spare = (fs', r) ∧ Stored fs' files cs' ∧
      (∀ j, j ≠ i → pieceOf cs'.flatten pl j = pieceOf cs.flatten pl j) ∧
      (∀ p, p ∉ files.map EntryBase.localPath → fs' p = fs p) ∧
      pieceOf cs'.flatten pl i = (d ++ spare).take m ++ (pieceOf cs.flatten pl i).drop m ∧
      ((pieceOf cs.flatten pl i).length ≤ (d ++ spare).length → m = (pieceOf cs.flatten pl i).length ∧ r = .ok m) ∧
      ((d ++ spare).length < (pieceOf cs.flatten pl i).length → m ≤ (d ++ spare).length ∧ r = .panic) := by
  obtain ⟨locs, h1, h2⟩ := h.locs i hi
  have hdisk := h.onDisk hs
  have hlen : total (lens files) = cs.flatten.length := by
    unfold total; rw [← hs.1, List.length_flatten]
  rw [hlen, ← hs.1] at h2
  obtain ⟨e1, e2⟩ := covered_range cs.flatten pl i
  have h1' : (openedAll ti).torInfo.PieceLookup i = .ok locs := h1
  have hh' : (openedAll ti).torInfo.PieceHash i = .ok (range hashes (20 * i) 20) := h.hash i hi
  have hw : WritePiece H fs (openedAll ti) i d spare = writeLoop (openedAll ti) (d ++ spare) locs 0 fs := by
    unfold WritePiece
    rw [h1', hh']
    simp only
    rw [if_neg (by simp [hh])]
  -- what a write of `m` bytes means for the pieces
  have key : ∀ (cs' : List Bytes) (m : Nat), m ≤ (d ++ spare).length → m ≤ (pieceOf cs.flatten pl i).length →
      cs'.flatten = splice cs.flatten (i * pl) (range (d ++ spare) 0 m) →
      (∀ j, j ≠ i → pieceOf cs'.flatten pl j = pieceOf cs.flatten pl j) ∧
      pieceOf cs'.flatten pl i = (d ++ spare).take m ++ (pieceOf cs.flatten pl i).drop m := by
    intro cs' m hm hm' hc
    have hr : range (d ++ spare) 0 m = (d ++ spare).take m := by unfold range; rw [List.drop_zero]
    have hrl : ((d ++ spare).take m).length = m := by rw [List.length_take]; omega
    rw [hr] at hc
    by_cases hle : i * pl ≤ cs.flatten.length
    · refine ⟨fun j hj => ?_, ?_⟩
      · rw [hc, pieceOf_splice_away _ _ _ _ _ (by omega) hle (Ne.symm hj)]
      · rw [hc, pieceOf_splice_head _ _ _ _ (by omega) hle, hrl]
    · have hm0 : m = 0 := by rw [pieceOf_length] at hm'; omega
      subst hm0
      rw [List.take_zero, splice_nil] at hc
      rw [hc]
      exact ⟨fun _ _ => rfl, by simp⟩
  rcases Nat.lt_or_ge (d ++ spare).length (pieceOf cs.flatten pl i).length with hlt | hge
  · obtain ⟨fs', cs', m, w1, w2, w5, w3, w4⟩ := writeLoop_short hdisk hp (d ++ spare) h2 0 (by omega) (by omega)
    have hcs' : Stored fs' files cs' := ⟨w2.lens, fun k f c hf hc => (w2.disk k f c hf hc).1⟩
    obtain ⟨k1, k2⟩ := key cs' m (by omega) (by omega) w3
    exact ⟨fs', cs', .panic, m, by rw [hw, w1], hcs', k1, w4, k2, fun _ => by omega, fun _ => ⟨by omega, rfl⟩⟩
  · obtain ⟨fs', cs', w1, w2, w3, w4⟩ := writeLoop_eq hdisk hp (d ++ spare) h2 0 (by omega)
    have hcs' : Stored fs' files cs' := ⟨w2.lens, fun k f c hf hc => (w2.disk k f c hf hc).1⟩
    rw [e2] at w3 w1
    obtain ⟨k1, k2⟩ := key cs' _ hge (Nat.le_refl _) w3
    exact ⟨fs', cs', _, _, by rw [hw, w1, Nat.zero_add], hcs', k1, w4, k2, fun _ => ⟨rfl, rfl⟩, fun _ => by omega⟩

/-- data that is too short for piece 1 of the example, with the recorded hash -/
example : ∃ ti, Accepted 4 exHashes exFiles ti ∧ 1 < ti.numPieces ∧ exH [5, 6] = range exHashes (20 * 1) 20 :=
  ⟨_, ⟨by decide, exFiles_nonneg, ascii "t", rfl⟩, by decide +kernel, by decide +kernel⟩

/-- **C62**, exact: an error is returned, and nothing changed, exactly for data without the recorded hash. -/
theorem C62_refused_iff_partial (H : Bytes → Bytes) (pl : Nat) (hashes : Bytes) (files : List EntryBase) (ti : TorInfo)
    (h : Accepted pl hashes files ti) (hp : (files.map EntryBase.localPath).Nodup) (fs : State) (cs : List Bytes)
    (hs : Stored fs files cs) (i : Nat) (hi : i < ti.numPieces) (d spare : Bytes) :
    (∃ fs' e, WritePiece H fs (openedAll ti) i d spare = (fs', .err e)) ↔ H d ≠ range hashes (20 * i) 20 := by
  constructor
  · rintro ⟨fs', e, he⟩ hh
    obtain ⟨fs2, cs', r, m, h1, -, -, -, -, h2, h3⟩ := C62_exact_partial H pl hashes files ti h hp fs cs hs i hi d spare hh
    rw [he] at h1
    rcases Nat.lt_or_ge (d ++ spare).length (pieceOf cs.flatten pl i).length with hlt | hge
    · have := (h3 hlt).2; rw [this] at h1; cases h1
    · have := (h2 hge).2; rw [this] at h1; cases h1
  · intro hh
    obtain ⟨name, hm⟩ := h.made
    obtain ⟨e, he⟩ := C27_no_bad_data H name pl hashes files ti hm (openedAll ti).opened fs i d spare (.inr (.inr hh))
    exact ⟨fs, e, he⟩

example : ∃ ti, Accepted 4 exHashes exFiles ti ∧ 1 < ti.numPieces ∧ exH [6, 6] ≠ range exHashes (20 * 1) 20 :=
  ⟨_, ⟨by decide, exFiles_nonneg, ascii "t", rfl⟩, by decide +kernel, by decide +kernel⟩

end Verif.FileIO
