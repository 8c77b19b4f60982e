import Verif.Model.WriteErr
import Verif.Props.FileIO
import Verif.Lemmas.MsgErr
/-
Property C115: why a piece is not written (/repo/src/torrent/fileio/fileio.go), and the text of the error of `PieceInfo` (/repo/src/torrent/filesd/entry.go).
-/
set_option autoImplicit false

namespace Verif.WriteErr
open Verif.Files Verif.FS Verif.FileIO Verif.Layout

/-- the result without the text -/
def plain : Res (Except WriteErr Nat) → Res Nat
  | .ok (.ok n) => .ok n
  | .ok (.error e) => .err e.kind
  | .err e => .err e
  | .panic => .panic
  | .timeout => .timeout

theorem lookup_eq (ti : TorInfo) (i : Int) :
    (∃ locs, lookupT ti i = .ok (.ok locs) ∧ ti.PieceLookup i = .ok locs) ∨
    (∃ e, lookupT ti i = .ok (.error e) ∧ ti.PieceLookup i = .err e.kind) ∨ (lookupT ti i = .panic ∧ ti.PieceLookup i = .panic) := by
  unfold lookupT TorInfo.PieceLookup
  split
  · exact .inr (.inl ⟨_, rfl, rfl⟩)
  · split
    · exact .inr (.inl ⟨_, rfl, rfl⟩)
    · cases ti.pm[i.toNat]? with
      | none => exact .inr (.inr ⟨rfl, rfl⟩)
      | some locs => exact .inl ⟨_, rfl, rfl⟩

theorem loop_plain (oserr : Bytes → Bytes) (fio : FileIO) (full : Bytes) (locs : List PieceLocation) (off : Nat) (fs : State) :
    (writeLoopT oserr fio full locs off fs).1 = (writeLoop fio full locs off fs).1 ∧
    plain (writeLoopT oserr fio full locs off fs).2 = (writeLoop fio full locs off fs).2 := by
  induction locs generalizing off fs with
  | nil => exact ⟨rfl, rfl⟩
  | cons l ls ih =>
    rw [writeLoopT, writeLoop]
    split
    · exact ⟨rfl, rfl⟩
    · cases fio.torInfo.flist[l.fidx]? with
      | none => exact ⟨rfl, rfl⟩
      | some e =>
        simp only
        split
        · cases fs e.base.localPath with
          | none => exact ⟨rfl, rfl⟩
          | some c =>
            simp only
            split
            · exact ⟨rfl, rfl⟩
            · exact ih _ _
        · exact ⟨rfl, rfl⟩

theorem plain_eq (oserr : Bytes → Bytes) (H : Bytes → Bytes) (fs : State) (fio : FileIO) (i : Int) (d spare : Bytes) :
    (WritePieceT oserr H fs fio i d spare).1 = (WritePiece H fs fio i d spare).1 ∧
    plain (WritePieceT oserr H fs fio i d spare).2 = (WritePiece H fs fio i d spare).2 := by
  unfold WritePieceT WritePiece
  rcases lookup_eq fio.torInfo i with ⟨locs, h1, h2⟩ | ⟨e, h1, h2⟩ | ⟨h1, h2⟩
  · rw [h1, h2]
    simp only
    cases fio.torInfo.PieceHash i with
    | ok k =>
      simp only
      split
      · exact ⟨rfl, rfl⟩
      · exact loop_plain _ _ _ _ _ _
    | _ => exact ⟨rfl, rfl⟩
  · rw [h1, h2]; exact ⟨rfl, rfl⟩
  · rw [h1, h2]; exact ⟨rfl, rfl⟩

/-- **C115**: the texts belong to the errors of `WritePiece`: the files change in the same way, and the call succeeds, fails and stops the program in the same cases. -/
theorem C115_same (oserr : Bytes → Bytes) (H : Bytes → Bytes) (fs : State) (fio : FileIO) (i : Int) (d spare : Bytes) :
    (WritePieceT oserr H fs fio i d spare).1 = (WritePiece H fs fio i d spare).1 ∧
    (∀ n, (WritePieceT oserr H fs fio i d spare).2 = .ok (.ok n) ↔ (WritePiece H fs fio i d spare).2 = .ok n) ∧
    (∀ e, (WritePieceT oserr H fs fio i d spare).2 = .ok (.error e) → (WritePiece H fs fio i d spare).2 = .err e.kind) ∧
    ((WritePieceT oserr H fs fio i d spare).2 = .panic ↔ (WritePiece H fs fio i d spare).2 = .panic) ∧
    ((WritePieceT oserr H fs fio i d spare).2 = .timeout ↔ (WritePiece H fs fio i d spare).2 = .timeout) := by
  obtain ⟨h1, h2⟩ := plain_eq oserr H fs fio i d spare
  refine ⟨h1, ?_⟩
  rw [← h2]
  cases (WritePieceT oserr H fs fio i d spare).2 with
  | ok r => cases r <;> simp [plain]
  | _ => simp [plain]

/-- the file system of the examples -/
def exFs : State := fun p => if p = ascii "a" then some [0, 0, 0, 0, 0] else if p = ascii "e" then some [] else if p = ascii "b" then some [0, 0, 0, 0, 0, 0, 0, 0] else none

/-- the torrent of the examples -/
def exTi : TorInfo := match NewTorInfo (ascii "t") 4 exHashes exFiles with
  | .ok ti => ti
  | _ => ⟨[], 0, [], 0, 0, [], false, [], 0⟩

theorem exTi_made : NewTorInfo (ascii "t") 4 exHashes exFiles = .ok exTi := rfl

theorem exAccepted : Accepted 4 exHashes exFiles exTi := ⟨by decide, exFiles_nonneg, ascii "t", exTi_made⟩

theorem exStored : Stored exFs exFiles [[0, 0, 0, 0, 0], [], [0, 0, 0, 0, 0, 0, 0, 0]] := by
  refine ⟨by decide, ?_⟩
  intro k f c hf hc
  match k, hf, hc with
  | 0, hf, hc => cases hf; cases hc; rfl
  | 1, hf, hc => cases hf; cases hc; rfl
  | 2, hf, hc => cases hf; cases hc; rfl

example : (WritePieceT id exH exFs (openedAll exTi) 1 [6, 6, 7, 8] []).2 = .ok (.error .hash) ∧
    (WritePieceT id exH exFs (openedAll exTi) 1 [5, 6, 7, 8] []).2 = .ok (.ok 4) := ⟨rfl, rfl⟩

/-- what is to be said about a piece that is refused: there is no such piece, or the data is not that of the piece -/
inductive Refused (H : Bytes → Bytes) (hashes : Bytes) (num : Nat) (i : Int) (d : Bytes) : Bytes → Prop
  | negative : i < 0 → Refused H hashes num i d (ascii "negative index")
  | beyond : (num : Int) ≤ i → Refused H hashes num i d (ascii "index out of bounds")
  | hash (n : Nat) : i = n → n < num → H d ≠ range hashes (20 * n) 20 → Refused H hashes num i d (ascii "invalid hash, refusing write")

/-- **C115**, exact: if all files of the torrent are there and open, `WritePiece` returns an error with the text `t` precisely if `t` is the reason for which the piece is to be
refused.  Nothing has been written then.  (If it is not refused, it is written, or the program stops: C62.) -/
theorem C115_exact (oserr : Bytes → Bytes) (H : Bytes → Bytes) (pl : Nat) (hashes : Bytes) (files : List EntryBase) (ti : TorInfo)
    (h : Accepted pl hashes files ti) (hp : (files.map EntryBase.localPath).Nodup) (fs : State) (cs : List Bytes)
    (hs : Stored fs files cs) (i : Int) (d spare : Bytes) (t : Bytes) :
    ((∃ e, (WritePieceT oserr H fs (openedAll ti) i d spare).2 = .ok (.error e) ∧ e.text = t) ↔ Refused H hashes ti.numPieces i d t) ∧
    ((∃ e, (WritePieceT oserr H fs (openedAll ti) i d spare).2 = .ok (.error e)) → (WritePieceT oserr H fs (openedAll ti) i d spare).1 = fs) := by
  have hneg : i < 0 → WritePieceT oserr H fs (openedAll ti) i d spare = (fs, .ok (.error .negative)) := by
    intro hi
    unfold WritePieceT lookupT
    rw [if_pos hi]
  have hbig : (ti.numPieces : Int) ≤ i → WritePieceT oserr H fs (openedAll ti) i d spare = (fs, .ok (.error .bounds)) := by
    intro hi
    unfold WritePieceT lookupT
    rw [if_neg (by omega), if_pos (show i ≥ ((openedAll ti).torInfo.numPieces : Int) from hi)]
  have hin : ∀ n : Nat, n < ti.numPieces → H d ≠ range hashes (20 * n) 20 → WritePieceT oserr H fs (openedAll ti) n d spare = (fs, .ok (.error .hash)) := by
    intro n hn hh
    obtain ⟨locs, h1, -⟩ := h.locs n hn
    unfold WritePieceT
    rcases lookup_eq (openedAll ti).torInfo n with ⟨locs', a, -⟩ | ⟨e, -, b⟩ | ⟨-, b⟩
    · rw [a, show (openedAll ti).torInfo.PieceHash n = .ok (range hashes (20 * n) 20) from h.hash n hn]
      simp only
      rw [if_pos hh]
    · rw [show (openedAll ti).torInfo.PieceLookup n = .ok locs from h1] at b; cases b
    · rw [show (openedAll ti).torInfo.PieceLookup n = .ok locs from h1] at b; cases b
  have hok : ∀ n : Nat, n < ti.numPieces → H d = range hashes (20 * n) 20 → ∀ e, (WritePieceT oserr H fs (openedAll ti) n d spare).2 ≠ .ok (.error e) := by
    intro n hn hh e he
    obtain ⟨fs', cs', r, m, a1, -, -, -, -, a2, a3⟩ := C62_exact_partial H pl hashes files ti h hp fs cs hs n hn d spare hh
    have hk := (C115_same oserr H fs (openedAll ti) n d spare).2.2.1 e he
    rw [a1] at hk
    simp only at hk
    by_cases hlen : (pieceOf cs.flatten pl n).length ≤ (d ++ spare).length
    · rw [(a2 hlen).2] at hk; cases hk
    · rw [(a3 (by omega)).2] at hk; cases hk
  by_cases h0 : i < 0
  · rw [hneg h0]
    refine ⟨⟨?_, ?_⟩, fun _ => rfl⟩
    · rintro ⟨e, he, rfl⟩
      cases he
      exact .negative h0
    · intro hr
      cases hr with
      | negative _ => exact ⟨_, rfl, rfl⟩
      | beyond hb => omega
      | hash n hn _ _ => omega
  · by_cases h1 : (ti.numPieces : Int) ≤ i
    · rw [hbig h1]
      refine ⟨⟨?_, ?_⟩, fun _ => rfl⟩
      · rintro ⟨e, he, rfl⟩
        cases he
        exact .beyond h1
      · intro hr
        cases hr with
        | negative _ => omega
        | beyond hb => exact ⟨_, rfl, rfl⟩
        | hash n hn hlt _ => omega
    · obtain ⟨n, rfl⟩ : ∃ n : Nat, i = n := ⟨i.toNat, by omega⟩
      by_cases hh : H d = range hashes (20 * n) 20
      · refine ⟨⟨?_, ?_⟩, ?_⟩
        · rintro ⟨e, he, -⟩
          exact absurd he (hok n (by omega) hh e)
        · intro hr
          cases hr with
          | negative _ => omega
          | beyond hb => omega
          | hash m hm _ hne =>
            obtain rfl : n = m := by omega
            exact absurd hh hne
        · rintro ⟨e, he⟩
          exact absurd he (hok n (by omega) hh e)
      · rw [hin n (by omega) hh]
        refine ⟨⟨?_, ?_⟩, fun _ => rfl⟩
        · rintro ⟨e, he, rfl⟩
          cases he
          exact .hash n rfl (by omega) hh
        · intro hr
          cases hr with
          | negative _ => omega
          | beyond hb => omega
          | hash m hm _ hne => exact ⟨_, rfl, rfl⟩

/-- an instance: wrong data for the second piece -/
example : (exFiles.map EntryBase.localPath).Nodup ∧ Refused exH exHashes exTi.numPieces 1 [6, 6, 7, 8] (ascii "invalid hash, refusing write") :=
  ⟨by decide +kernel, .hash 1 rfl (by decide +kernel) (by decide +kernel)⟩

/-- **C115**, files that are not open: data with the right hash is refused precisely if there is a range of the piece in such a file; the text has the path of the file of the first
such range.  (`locs` are the ranges of the piece, C23.) -/
theorem C115_not_open (oserr : Bytes → Bytes) (H : Bytes → Bytes) (pl : Nat) (hashes : Bytes) (files : List EntryBase) (ti : TorInfo)
    (h : Accepted pl hashes files ti) (opened : List Bytes) (fs : State) (hex : ∀ p ∈ opened, fs p ≠ none) (i : Nat) (hi : i < ti.numPieces) (d spare : Bytes)
    (hh : H d = range hashes (20 * i) 20) (locs : List PieceLocation) (hl : ti.PieceLookup i = .ok locs)
    (hd : ((locs.map fun l => l.loc.readAmnt.toNat).sum ≤ (d ++ spare).length)) (t : Bytes) :
    (∃ e, (WritePieceT oserr H fs ⟨opened, ti⟩ i d spare).2 = .ok (.error e) ∧ e.text = t) ↔
    ∃ pre l post f, locs = pre ++ l :: post ∧ files[l.fidx]? = some f ∧ f.localPath ∉ opened ∧
      (∀ l' ∈ pre, ∃ f', files[l'.fidx]? = some f' ∧ f'.localPath ∈ opened) ∧ t = ascii "path [" ++ f.localPath ++ ascii "] does not exist" := by
  obtain ⟨locs', hl', hc⟩ := h.locs i hi
  rw [hl] at hl'
  cases hl'
  obtain ⟨-, -, hfl⟩ := h.np
  have hbase : ∀ k : Nat, (ti.flist[k]?).map Entry.base = files[k]? := by
    intro k
    rw [hfl, entriesFrom_get]
    cases files[k]? with
    | none => rfl
    | some f =>
      simp only [Option.map_some]
      congr 1
      unfold entryAt; split
      · rfl
      · split <;> rfl
  have hw : WritePieceT oserr H fs ⟨opened, ti⟩ i d spare = writeLoopT oserr ⟨opened, ti⟩ (d ++ spare) locs 0 fs := by
    unfold WritePieceT
    rcases lookup_eq ti i with ⟨locs', a, b⟩ | ⟨e, -, b⟩ | ⟨-, b⟩
    · rw [hl] at b
      cases b
      simp only [a, h.hash i hi]
      rw [if_neg (by simp [hh])]
    · rw [hl] at b; cases b
    · rw [hl] at b; cases b
  rw [hw]
  have hloop : ∀ (a b : Nat) (locs : List PieceLocation), Consec (lens files) a locs b → ∀ (off : Nat) (fs : State), (∀ p ∈ opened, fs p ≠ none) →
      off + (locs.map fun l => l.loc.readAmnt.toNat).sum ≤ (d ++ spare).length →
      ((∃ e, (writeLoopT oserr ⟨opened, ti⟩ (d ++ spare) locs off fs).2 = .ok (.error e) ∧ e.text = t) ↔
        ∃ pre l post f, locs = pre ++ l :: post ∧ files[l.fidx]? = some f ∧ f.localPath ∉ opened ∧
          (∀ l' ∈ pre, ∃ f', files[l'.fidx]? = some f' ∧ f'.localPath ∈ opened) ∧ t = ascii "path [" ++ f.localPath ++ ascii "] does not exist") := by
    intro a b locs hc
    induction hc with
    | nil a =>
      intro off fs _ _
      rw [writeLoopT]
      constructor
      · rintro ⟨e, he, -⟩; cases he
      · rintro ⟨pre, l, post, f, he, -⟩
        cases pre <;> cases he
    | cons a b k s r rest e1 e0 e2 hr ih =>
      intro off fs hex hsum
      simp only [List.map_cons, List.sum_cons, Int.toNat_natCast] at hsum
      have hk : k < files.length := by simpa [lens] using e0
      obtain ⟨f, hf⟩ : ∃ f, files[k]? = some f := ⟨_, List.getElem?_eq_getElem hk⟩
      have hb := hbase k
      rw [hf] at hb
      cases hfe : ti.flist[k]? with
      | none => rw [hfe] at hb; cases hb
      | some e =>
        rw [hfe] at hb
        simp only [Option.map_some, Option.some.injEq] at hb
        subst hb
        rw [writeLoopT]
        simp only [hfe]
        rw [if_neg (by omega)]
        by_cases hop : e.base.localPath ∈ opened
        · rw [if_pos hop]
          cases hfs : fs e.base.localPath with
          | none => exact absurd hfs (hex _ hop)
          | some c =>
            simp only [Int.toNat_natCast]
            rw [if_neg (by omega), ih (off + r) _ ?_ (by omega)]
            · constructor
              · rintro ⟨pre, l, post, f, rfl, g1, g2, g3, g4⟩
                refine ⟨_ :: pre, l, post, f, rfl, g1, g2, ?_, g4⟩
                intro l' hl'
                rcases List.mem_cons.mp hl' with rfl | hl'
                · exact ⟨_, hf, hop⟩
                · exact g3 l' hl'
              · rintro ⟨pre, l, post, f, g0, g1, g2, g3, g4⟩
                cases pre with
                | nil =>
                  cases g0
                  rw [hf] at g1
                  cases g1
                  exact absurd hop g2
                | cons x pre =>
                  cases g0
                  exact ⟨pre, l, post, f, rfl, g1, g2, fun l' hl' => g3 l' (List.mem_cons_of_mem _ hl'), g4⟩
            · intro p hp
              unfold State.set
              split
              · simp
              · exact hex p hp
        · rw [if_neg hop]
          constructor
          · rintro ⟨x, hx, rfl⟩
            cases hx
            exact ⟨[], _, rest, _, rfl, hf, hop, by simp, rfl⟩
          · rintro ⟨pre, l, post, f, g0, g1, g2, g3, g4⟩
            cases pre with
            | nil =>
              cases g0
              rw [hf] at g1
              cases g1
              exact ⟨_, rfl, g4.symm⟩
            | cons x pre =>
              cases g0
              obtain ⟨f', y1, y2⟩ := g3 _ List.mem_cons_self
              rw [hf] at y1
              cases y1
              exact absurd y2 hop
  exact hloop _ _ locs hc 0 fs hex (by omega)

/-- an instance: the second piece lies in two files (and one that is empty); the last is not open -/
example : (∀ p ∈ [ascii "a", ascii "e"], exFs p ≠ none) ∧ exH [5, 6, 7, 8] = range exHashes (20 * 1) 20 ∧
    (WritePieceT id exH exFs ⟨[ascii "a", ascii "e"], exTi⟩ 1 [5, 6, 7, 8] []).2 = .ok (.error (.path (ascii "b"))) := ⟨by decide +kernel, by decide +kernel, rfl⟩

/-- **C115** refuted: part of the piece may have been written when an error is returned.  The number that comes with the error is 0. -/
theorem C115_refuted_part : Accepted 4 exHashes exFiles exTi ∧ exH [5, 6, 7, 8] = range exHashes (20 * 1) 20 ∧
    WritePieceT id exH exFs ⟨[ascii "a", ascii "e"], exTi⟩ 1 [5, 6, 7, 8] [] =
      ((WritePieceT id exH exFs ⟨[ascii "a", ascii "e"], exTi⟩ 1 [5, 6, 7, 8] []).1, .ok (.error (.path (ascii "b")))) ∧
    exFs (ascii "a") = some [0, 0, 0, 0, 0] ∧
    (WritePieceT id exH exFs ⟨[ascii "a", ascii "e"], exTi⟩ 1 [5, 6, 7, 8] []).1 (ascii "a") = some [0, 0, 0, 0, 5] :=
  ⟨exAccepted, by decide +kernel, Prod.ext rfl rfl, by decide +kernel, by decide +kernel⟩

/-- **C115** refuted: it is not said which piece was refused, or what its hash is.  The text is the same for all data that is wrong, and for all pieces. -/
theorem C115_refuted_which (oserr : Bytes → Bytes) (H : Bytes → Bytes) (pl : Nat) (hashes : Bytes) (files : List EntryBase) (ti : TorInfo)
    (h : Accepted pl hashes files ti) (hp : (files.map EntryBase.localPath).Nodup) (fs : State) (cs : List Bytes) (hs : Stored fs files cs)
    (i j : Nat) (hi : i < ti.numPieces) (hj : j < ti.numPieces) (d d' spare spare' : Bytes) (h1 : H d ≠ range hashes (20 * i) 20) (h2 : H d' ≠ range hashes (20 * j) 20) :
    ∃ e e', (WritePieceT oserr H fs (openedAll ti) i d spare).2 = .ok (.error e) ∧ (WritePieceT oserr H fs (openedAll ti) j d' spare').2 = .ok (.error e') ∧ e.text = e'.text := by
  obtain ⟨e, a1, a2⟩ := (C115_exact oserr H pl hashes files ti h hp fs cs hs i d spare _).1.mpr (.hash i rfl hi h1)
  obtain ⟨e', b1, b2⟩ := (C115_exact oserr H pl hashes files ti h hp fs cs hs j d' spare' _).1.mpr (.hash j rfl hj h2)
  exact ⟨e, e', a1, b1, a2.trans b2.symm⟩

example : (0 : Nat) < exTi.numPieces ∧ 1 < exTi.numPieces ∧ exH [6, 6, 7, 8] ≠ range exHashes (20 * 0) 20 ∧ exH [6, 6, 7, 8] ≠ range exHashes (20 * 1) 20 := by decide +kernel

/-- **C115**, the error of `PieceInfo`: it is returned precisely for pieces of which nothing can be in the file, and has the index; otherwise the result is that of the model without
texts. -/
theorem C115_piece_info (few : Entry) (index pl : Int) :
    (∀ t, PieceInfoT few index pl = .error t ↔ (index < few.startPiece ∨ few.endPiece < index) ∧ t = ascii "index " ++ Bencode.Spec.decInt index ++ ascii " out of range") ∧
    (∀ p, PieceInfoT few index pl = .ok p ↔ few.PieceInfo index pl = .ok p) ∧
    ((∃ t, PieceInfoT few index pl = .error t) ↔ ∃ e, few.PieceInfo index pl = .err e) := by
  rw [Bencode.decInt_eq]
  unfold PieceInfoT Entry.PieceInfo
  split
  · rename_i hc
    refine ⟨fun t => ⟨?_, ?_⟩, fun p => ⟨?_, ?_⟩, fun _ => ⟨_, rfl⟩, fun _ => ⟨_, rfl⟩⟩
    · intro ht; cases ht; exact ⟨hc, rfl⟩
    · rintro ⟨-, rfl⟩; rfl
    · intro x; cases x
    · intro x; cases x
  · rename_i hc
    split
    · refine ⟨fun t => ⟨?_, ?_⟩, fun p => ⟨?_, ?_⟩, ?_, ?_⟩
      · intro x; cases x
      · rintro ⟨x, -⟩; exact absurd x (by omega)
      · intro x; cases x; rfl
      · intro x; cases x; rfl
      · rintro ⟨t, x⟩; cases x
      · rintro ⟨t, x⟩; cases x
    · refine ⟨fun t => ⟨?_, ?_⟩, fun p => ⟨?_, ?_⟩, ?_, ?_⟩
      · intro x; cases x
      · rintro ⟨x, -⟩; exact absurd x (by omega)
      · intro x; cases x; rfl
      · intro x; cases x; rfl
      · rintro ⟨t, x⟩; cases x
      · rintro ⟨t, x⟩; cases x

/-- an instance: the last of three files, which has pieces 1 to 3 -/
example : ∃ e, exTi.flist[2]? = some e ∧ e.startPiece = 1 ∧ e.endPiece = 3 ∧ (PieceInfoT e 4 4).toOption = none ∧ (PieceInfoT e 2 4).toOption = some ⟨3, 4⟩ :=
  ⟨_, rfl, by decide +kernel⟩

end Verif.WriteErr
