import Verif.Props.Program
import Verif.Props.UrlParse
import Verif.Props.Hostile
/-
C101: how the program ends if it does not come to serve, and that it does not stop in between.
-/
set_option autoImplicit false

namespace Verif.Program
open Verif.Utils Verif.Flags Verif.Startup Verif.Torrent Verif.DirFS Verif.FS Verif.Bencode Verif.Lts Verif.Files Verif.FileIO Verif.Show Verif.ShowSpec
  Verif.Bencode.Spec Verif.Human Verif.Dirs

/-! ### everything in front of serving comes to an end -/

theorem readLoop_ne_timeout (fs : State) (fio : FileIO) : ∀ (ls : List PieceLocation) (off : Nat) (buf : Bytes), readLoop fs fio ls off buf ≠ .timeout := by
  intro ls
  induction ls with
  | nil => intro off buf; rw [readLoop]; simp
  | cons l ls ih =>
    intro off buf
    rw [readLoop]
    split
    · simp
    · split
      · simp
      · split
        · split
          · simp
          · split
            · simp
            · split
              · simp
              · exact ih _ _
        · simp

theorem readPiece_ne_timeout (fs : State) (fio : FileIO) (i : Int) (buf : Bytes) : ReadPiece fs fio i buf ≠ .timeout := by
  unfold ReadPiece
  refine bind_ne_timeout ?_ fun ls _ => readLoop_ne_timeout _ _ _ _ _
  unfold TorInfo.PieceLookup
  split
  · simp
  · split
    · simp
    · split <;> simp

theorem set_ne_timeout (b : Bf.Bitfield) (i : Int) (v : Bool) : b.Set i v ≠ .timeout := by
  unfold Bf.Bitfield.Set
  simp only
  split
  · simp
  · split
    · simp
    · split
      · simp
      · split
        · simp
        · split <;> simp

theorem validateLoop_ne_timeout (H : Bytes → Bytes) (fs : State) (fio : FileIO) : ∀ (n i : Nat) (buf : Bytes) (b : Bf.Bitfield), Swarm.validateLoop H fs fio n i buf b ≠ .timeout := by
  intro n
  induction n with
  | zero => intro i buf b; rw [Swarm.validateLoop]; simp
  | succ n ih =>
    intro i buf b
    rw [Swarm.validateLoop]
    refine bind_ne_timeout (readPiece_ne_timeout _ _ _ _) fun x _ => ?_
    refine bind_ne_timeout ?_ fun y _ => bind_ne_timeout (set_ne_timeout _ _ _) fun z _ => ih _ _ _
    unfold TorInfo.PieceHash
    split <;> simp

theorem finish_ne_timeout (w : World) (o : Options) (id : Bytes) (tor : Torrent) (fs : State) : finish w o id tor fs ≠ .timeout := by
  unfold finish
  refine bind_ne_timeout ?_ fun b0 _ => bind_ne_timeout ?_ fun b _ => bind_ne_timeout ?_ fun resp _ => ?_
  · unfold Bf.NewBitfield
    dsimp only
    generalize (Int.tdiv _ 8 + _ : Int) = k
    split
    · simp
    · generalize List.replicate _ _ = l
      split <;> simp
  · unfold Swarm.Validate
    split
    · simp
    · exact validateLoop_ne_timeout _ _ _ _ _ _ _
  · exact (Tracker.C65_panic_iff_partial _ _ _ _ _ _ _ _ _).2
  · obtain ⟨t, e, -⟩ := PieceTracker.new_spec (UInt32.ofNat tor.info.numPieces).toNat
    rw [e]
    simp

theorem unitLoop_no_err (x : Int) (e : Err) : ∀ (f : Nat) (d : Int) (n : Nat), unitLoop x f d n ≠ .err e := by
  intro f
  induction f with
  | zero => intro d n h; cases h
  | succ f ih =>
    intro d n
    rw [unitLoop]
    split
    · exact ih _ _
    · simp

theorem humans_no_err (n : Int) (e : Err) : Bytes4Humans n ≠ .err e := by
  unfold Bytes4Humans
  split
  · simp
  · cases h : unitLoop (float64 n) 8 1024 0 with
    | ok x => simp only; split <;> simp
    | err e' => exact absurd h (unitLoop_no_err _ _ _ _ _)
    | panic | timeout => simp

theorem bind_no_err {α β : Type} {x : Res α} {g : α → Res β} {e : Err} (h1 : x ≠ .err e) (h2 : ∀ a, g a ≠ .err e) : (x >>= g) ≠ .err e := by
  cases x with
  | ok a => exact h2 a
  | err e' => intro h; cases h; exact h1 rfl
  | panic | timeout => intro h; cases h

theorem torrentString_no_err (fv : Int → Int → Bytes) (t : Torrent) (e : Err) : TorrentString fv t ≠ .err e := by
  have hl : ∀ es : List Entry, fileLines fv es ≠ .err e := by
    intro es
    induction es with
    | nil => rw [fileLines]; simp
    | cons x es ih =>
      rw [fileLines]
      refine bind_no_err ?_ fun _ => bind_no_err ih fun _ => (by simp)
      unfold fileLine
      cases h : Bytes4Humans x.base.length with
      | err e' => exact absurd h (humans_no_err _ _)
      | ok _ | panic | timeout => simp
  unfold TorrentString
  refine bind_no_err ?_ fun _ => bind_no_err ?_ fun _ => ?_
  · unfold pieceLine
    cases h : Bytes4Humans t.info.pieceLen with
    | err e' => exact absurd h (humans_no_err _ _)
    | ok _ | panic | timeout => simp
  · unfold lengthLines
    cases h : Bytes4Humans t.info.length with
    | err e' => exact absurd h (humans_no_err _ _)
    | ok _ | panic | timeout => simp
  · dsimp only
    split
    · intro h; cases h
    · exact bind_no_err (hl _) fun _ h => (by cases h)

/-- **C101**: the program never comes to a stand: in whatever state it is, it goes on, unless it has ended or the tracker does not answer.  (The hypothesis is about the text
of a torrent whose sizes do not fit into 64 bits, for which the model of `Bytes4Humans` says nothing.) -/
theorem C101_goes_on (S : Setting) (args : List Bytes) (p : Proc) (hsize : ∀ o tor out d, p = .opened o tor out d → TorrentString S.fv tor ≠ .timeout) :
    (∃ p', Step S args p p') ∨ (∃ s out d, p = .ended s out d) ∨ ∃ o tor out d raw, p = .opened o tor out d ∧ asks S o tor d.files = .ok raw ∧ S.silent raw = true := by
  cases p with
  | begin d =>
    left
    rcases C75_otherwise args with ⟨o, e⟩ | ⟨o, e⟩ | e | e | e
    · exact ⟨_, .rejected d o false .os e rfl⟩
    · exact ⟨_, .infoFatal d o false .os e rfl⟩
    · exact ⟨_, .badOpts d e⟩
    · exact ⟨_, .exit d _ e⟩
    · exact ⟨_, .exit d _ e⟩
  | opened o tor out d =>
    by_cases hs : ∀ raw, asks S o tor d.files = .ok raw → S.silent raw = false
    · left
      cases hf : finish S.w (options o) S.id tor d.files with
      | err e => exact ⟨_, .fatal o tor out d e hs hf⟩
      | panic => exact ⟨_, .panic o tor out d hs hf⟩
      | timeout => exact absurd hf (finish_ne_timeout _ _ _ _ _)
      | ok st =>
        have ht : st.tor = tor := by
          obtain ⟨-, -, -, -, -, -, -, -, rfl⟩ := finish_ok hf
          rfl
        cases hp : SwarmString S.fv S.w.v6 st with
        | ok text => exact ⟨_, .start o tor out d st text hs hf hp⟩
        | panic => exact ⟨_, .printPanic o tor out d st hs hf hp⟩
        | timeout =>
          refine absurd hp (bind_ne_timeout ?_ fun _ _ => (by simp))
          rw [ht]
          exact hsize o tor out d rfl
        | err e =>
          unfold SwarmString at hp
          cases hts : TorrentString S.fv st.tor with
          | ok _ | panic | timeout => rw [hts] at hp; cases hp
          | err e => exact absurd hts (torrentString_no_err _ _ _)
    · right; right
      obtain ⟨raw, hraw⟩ := Classical.not_forall.mp hs
      obtain ⟨h1, h2⟩ := Classical.not_imp.mp hraw
      exact ⟨o, tor, out, d, raw, rfl, h1, by simpa using h2⟩
  | serving st σ out d =>
    left
    cases hc : σ.client.crashed with
    | true => exact ⟨_, .died st σ out d hc⟩
    | false => exact ⟨_, .spin st σ out d hc⟩
  | ended s out d => exact .inr (.inl ⟨s, out, d, rfl⟩)

/-! ### torrent files that cannot be loaded, command lines that mean nothing -/

/-- what a step from the beginning leads to if the torrent file cannot be loaded -/
theorem refused_only {S : Setting} {args : List Bytes} {d : Disk} {w : Wanted} (hm : Means args w) (hi : w.input ≠ []) (hc : w.cmd = ascii "swarm" ∨ w.cmd = ascii "info")
    (hno : ∀ tor, FromTorrentFile S.w.H (d.files w.input) S.w.spareFile w.wd ≠ .ok tor) (p : Proc) (h : Reach (Step S args) (.begin d) p) :
    p = .begin d ∨ (∃ out, p = .ended 1 out d) ∨ (∃ out, p = .ended 2 out d) ∧ FromTorrentFile S.w.H (d.files w.input) S.w.spareFile w.wd = .panic := by
  have hsh : ∀ o, main args = .swarm o ∨ main args = .info o → o.input = w.input ∧ o.wd = w.wd := by
    intro o ho
    rcases hc with hc | hc
    · obtain ⟨o', g1, m4⟩ := (C75_swarm_partial args).1 w ⟨hm, hi, hc⟩
      rw [g1] at ho
      rcases ho with e | e <;> cases e
      exact ⟨m4.input, m4.wd⟩
    · obtain ⟨o', g1, m4⟩ := (C75_info_partial args).1 w ⟨hm, hi, hc⟩
      rw [g1] at ho
      rcases ho with e | e <;> cases e
      exact ⟨m4.input, m4.wd⟩
  have hmain : (∃ o, main args = .swarm o) ∨ ∃ o, main args = .info o := by
    rcases hc with hc | hc
    · obtain ⟨o, g1, -⟩ := (C75_swarm_partial args).1 w ⟨hm, hi, hc⟩
      exact .inl ⟨o, g1⟩
    · obtain ⟨o, g1, -⟩ := (C75_info_partial args).1 w ⟨hm, hi, hc⟩
      exact .inr ⟨o, g1⟩
  have hload : ∀ (o : Opts) (readOk : Bool) (tor : Torrent), main args = .swarm o ∨ main args = .info o → FromTorrentFile S.w.H (if readOk then d.files o.input else none) S.w.spareFile o.wd ≠ .ok tor := by
    intro o readOk tor ho he
    obtain ⟨e1, e2⟩ := hsh o ho
    cases readOk with
    | false => cases he
    | true => rw [if_pos rfl, e1, e2] at he; exact hno tor he
  have hpanic : ∀ (o : Opts) (readOk : Bool), main args = .swarm o ∨ main args = .info o → FromTorrentFile S.w.H (if readOk then d.files o.input else none) S.w.spareFile o.wd = .panic →
      FromTorrentFile S.w.H (d.files w.input) S.w.spareFile w.wd = .panic := by
    intro o readOk ho he
    obtain ⟨e1, e2⟩ := hsh o ho
    cases readOk with
    | false => cases he
    | true => rw [if_pos rfl, e1, e2] at he; exact he
  refine h.keep (Q := fun p => p = .begin d ∨ (∃ out, p = .ended 1 out d) ∨ (∃ out, p = .ended 2 out d) ∧ FromTorrentFile S.w.H (d.files w.input) S.w.spareFile w.wd = .panic) ?_ (.inl rfl)
  rintro a b (rfl | ⟨out, rfl⟩ | ⟨⟨out, rfl⟩, -⟩) hs
  · cases hs with
    | exit _ c h => rcases hmain with ⟨o, e⟩ | ⟨o, e⟩ <;> rw [h] at e <;> cases e
    | badOpts _ h => rcases hmain with ⟨o, e⟩ | ⟨o, e⟩ <;> rw [h] at e <;> cases e
    | invalid _ o h => rcases hmain with ⟨o, e⟩ | ⟨o, e⟩ <;> rw [h] at e <;> cases e
    | info _ o readOk text h h1 =>
      obtain ⟨tor, t1, -⟩ := Res.bind_eq_ok.mp h1
      exact absurd t1 (hload o readOk tor (.inr h))
    | infoFatal _ o readOk e h h1 => exact .inr (.inl ⟨_, rfl⟩)
    | infoPanic _ o readOk h h1 =>
      refine .inr (.inr ⟨⟨_, rfl⟩, hpanic o readOk (.inr h) ?_⟩)
      unfold CmdTorInfo at h1
      cases hf : FromTorrentFile S.w.H (if readOk then d.files o.input else none) S.w.spareFile o.wd with
      | ok tor => exact absurd hf (hload o readOk tor (.inr h))
      | err e => rw [hf] at h1; cases h1
      | panic => rfl
      | timeout => rw [hf] at h1; cases h1
    | rejected _ o readOk e h h1 => exact .inr (.inl ⟨_, rfl⟩)
    | loadPanic _ o readOk h h1 => exact .inr (.inr ⟨⟨_, rfl⟩, hpanic o readOk (.inl h) h1⟩)
    | noFiles _ _ o readOk tor e h h1 h2 => exact absurd h1 (hload o readOk tor (.inl h))
    | filesPanic _ _ o readOk tor h h1 h2 => exact absurd h1 (hload o readOk tor (.inl h))
    | «open» _ _ o readOk tor h h1 h2 => exact absurd h1 (hload o readOk tor (.inl h))
  · cases hs
  · cases hs

/-- **C101**: a torrent file that is refused ends the program with status 1, one that loading panics on with status 2 (or 1, if reading it fails), for both commands; nothing on the disk
is changed, and nothing else can happen. -/
theorem C101_refused (S : Setting) (args : List Bytes) (d : Disk) (w : Wanted) (hm : Means args w) (hi : w.input ≠ []) (hc : w.cmd = ascii "swarm" ∨ w.cmd = ascii "info") :
    (∀ e, FromTorrentFile S.w.H (d.files w.input) S.w.spareFile w.wd = .err e → (∃ out, Reach (Step S args) (.begin d) (.ended 1 out d)) ∧
      ∀ p, Reach (Step S args) (.begin d) p → p = .begin d ∨ ∃ out, p = .ended 1 out d) ∧
    (FromTorrentFile S.w.H (d.files w.input) S.w.spareFile w.wd = .panic → (∃ out, Reach (Step S args) (.begin d) (.ended 2 out d)) ∧
      ∀ p, Reach (Step S args) (.begin d) p → p = .begin d ∨ (∃ out, p = .ended 1 out d) ∨ ∃ out, p = .ended 2 out d) ∧
    ∃ out, Reach (Step S args) (.begin d) (.ended 1 out d) := by
  have hsh : ∃ o, (main args = .swarm o ∨ main args = .info o) ∧ o.input = w.input ∧ o.wd = w.wd := by
    rcases hc with hc | hc
    · obtain ⟨o', g1, m4⟩ := (C75_swarm_partial args).1 w ⟨hm, hi, hc⟩
      exact ⟨o', .inl g1, m4.input, m4.wd⟩
    · obtain ⟨o', g1, m4⟩ := (C75_info_partial args).1 w ⟨hm, hi, hc⟩
      exact ⟨o', .inr g1, m4.input, m4.wd⟩
  obtain ⟨o, ho, e1, e2⟩ := hsh
  refine ⟨fun e he => ⟨?_, fun p hp => ?_⟩, fun he => ⟨?_, fun p hp => ?_⟩, ?_⟩
  · rcases ho with ho | ho
    · exact ⟨_, .single (.rejected d o true e ho (by unfold load; rw [if_pos rfl, e1, e2]; exact he))⟩
    · exact ⟨_, .single (.infoFatal d o true e ho (by unfold CmdTorInfo; rw [if_pos rfl, e1, e2, he]; rfl))⟩
  · rcases refused_only hm hi hc (fun tor h => by rw [he] at h; cases h) p hp with h | h | ⟨-, h⟩
    · exact .inl h
    · exact .inr h
    · rw [he] at h; cases h
  · rcases ho with ho | ho
    · exact ⟨_, .single (.loadPanic d o true ho (by unfold load; rw [if_pos rfl, e1, e2]; exact he))⟩
    · exact ⟨_, .single (.infoPanic d o true ho (by unfold CmdTorInfo; rw [if_pos rfl, e1, e2, he]; rfl))⟩
  · rcases refused_only hm hi hc (fun tor h => by rw [he] at h; cases h) p hp with h | h | ⟨h, -⟩
    · exact .inl h
    · exact .inr (.inl h)
    · exact .inr (.inr h)
  · rcases ho with ho | ho
    · exact ⟨_, .single (.rejected d o false .os ho rfl)⟩
    · exact ⟨_, .single (.infoFatal d o false .os ho rfl)⟩

/-- **C101**: a command line that does not name a torrent file and a command ends the program with status 2, or 0 if help is asked for, and nothing else can happen; nothing has been
written to standard output. -/
theorem C101_usage (S : Setting) (args : List Bytes) (d : Disk) (hno : ¬ ∃ w, Means args w ∧ w.input ≠ [] ∧ (w.cmd = ascii "swarm" ∨ w.cmd = ascii "info")) :
    ∃ s, (s = 0 ∧ main args = .exit 0 ∨ s = 2 ∧ main args ≠ .exit 0) ∧ Reach (Step S args) (.begin d) (.ended s [] d) ∧
      ∀ p, Reach (Step S args) (.begin d) p → p = .begin d ∨ p = .ended s [] d := by
  have hsw : ∀ o, main args ≠ .swarm o := fun o ho => by
    obtain ⟨w, m1, m2, m3, -⟩ := (C75_swarm_partial args).2 o ho
    exact hno ⟨w, m1, m2, .inl m3⟩
  have hin : ∀ o, main args ≠ .info o := fun o ho => by
    obtain ⟨w, m1, m2, m3, -⟩ := (C75_info_partial args).2 o ho
    exact hno ⟨w, m1, m2, .inr m3⟩
  have key : ∃ s, (s = 0 ∧ main args = .exit 0 ∨ s = 2 ∧ main args ≠ .exit 0) ∧ ∀ p, Step S args (.begin d) p ↔ p = .ended s [] d := by
    rcases C75_otherwise args with ⟨o, e⟩ | ⟨o, e⟩ | e | e | e
    · exact absurd e (hsw o)
    · exact absurd e (hin o)
    · refine ⟨2, .inr ⟨rfl, by rw [e]; simp⟩, fun p => ⟨fun h => ?_, fun h => h ▸ .badOpts d e⟩⟩
      cases h with
      | badOpts => rfl
      | exit _ _ h | invalid _ _ h | info _ _ _ _ h | infoFatal _ _ _ _ h | infoPanic _ _ _ h | rejected _ _ _ _ h | loadPanic _ _ _ h | noFiles _ _ _ _ _ _ h
      | filesPanic _ _ _ _ _ h | «open» _ _ _ _ _ h => exact nomatch e.symm.trans h
    · refine ⟨0, .inl ⟨rfl, e⟩, fun p => ⟨fun h => ?_, fun h => h ▸ .exit d 0 e⟩⟩
      cases h with
      | exit _ _ h => rw [e] at h; cases h; rfl
      | badOpts _ h | invalid _ _ h | info _ _ _ _ h | infoFatal _ _ _ _ h | infoPanic _ _ _ h | rejected _ _ _ _ h | loadPanic _ _ _ h | noFiles _ _ _ _ _ _ h
      | filesPanic _ _ _ _ _ h | «open» _ _ _ _ _ h => exact nomatch e.symm.trans h
    · refine ⟨2, .inr ⟨rfl, by rw [e]; simp⟩, fun p => ⟨fun h => ?_, fun h => h ▸ .exit d 2 e⟩⟩
      cases h with
      | exit _ _ h => rw [e] at h; cases h; rfl
      | badOpts _ h | invalid _ _ h | info _ _ _ _ h | infoFatal _ _ _ _ h | infoPanic _ _ _ h | rejected _ _ _ _ h | loadPanic _ _ _ h | noFiles _ _ _ _ _ _ h
      | filesPanic _ _ _ _ _ h | «open» _ _ _ _ _ h => exact nomatch e.symm.trans h
  obtain ⟨s, hs, hk⟩ := key
  refine ⟨s, hs, .single ((hk _).mpr rfl), fun p hp => ?_⟩
  refine hp.keep (Q := fun p => p = .begin d ∨ p = .ended s [] d) ?_ (.inl rfl)
  rintro a b (rfl | rfl) h
  · exact .inr ((hk _).mp h)
  · cases h

/-! ### an announce URL that is not a URL -/

/-- **C101** is false: with an announce URL that is not a URL everything is prepared on the disk, files of full length included, and then the program panics instead of ending with a message;
it never serves. -/
theorem C101_refuted_url (S : Setting) (hu : S.w.parseURL = UrlParse.announce) (args : List Bytes) (d : Disk) (ht : Tree S.cwd d) (w : Wanted) (hm : Means args w) (hi : w.input ≠ [])
    (hc : w.cmd = ascii "swarm") (data : Bytes) (tor : Torrent) (hd : d.files w.input = some data) (hf : FromTorrentFile S.w.H (some data) S.w.spareFile w.wd = .ok tor)
    (hn : NothingInTheWay S.cwd tor.info.flist d) (hs : Sensible tor.info) (h64 : Sizes64 tor.info) (ha : ¬ UrlSpec.IsURL tor.announce) :
    (∃ out d', Reach (Step S args) (.begin d) (.ended 2 out d') ∧
      ∀ e ∈ tor.info.flist, d'.files e.base.localPath = some (prepared (old d.files e.base.localPath) e.base.length.toNat)) ∧
    ∀ st σ out d', ¬ Reach (Step S args) (.begin d) (.serving st σ out d') := by
  obtain ⟨o, g1, m4⟩ := (C75_swarm_partial args).1 w ⟨hm, hi, hc⟩
  have l1 := hd
  have l2 := hf
  rw [← m4.input] at l1
  rw [← m4.wd] at l2
  have hl : load S o true d = .ok tor := by unfold load; rw [if_pos rfl, l1]; exact l2
  obtain ⟨d', hx⟩ := (C88_storable_iff_partial false S.cwd _ hs.nonneg d ht).2 hn
  have hprep := C26_prepared _ _ _ _ (loaded_accepted l2 hs) (by rw [List.map_map]; exact hs.distinct) d.files d'.files hx.plain
  obtain ⟨b0, b, v1, v2, -⟩ := validated (H := S.w.H) (loaded_accepted l2 hs) hprep
  have hget : ∀ http, Tracker.Get S.w.v6 S.w.parseIP S.w.parseURL http S.w.spareBody tor (Tracker.NewStats 0 0 0) (options o).port S.id = .panic := by
    intro http
    rw [hu]
    exact (UrlParse.C65_exact_partial _ _ _ _ _ _ _ _).mpr ha
  have hreq : ∀ port raw, Tracker.newRequest S.w.parseURL tor (Tracker.NewStats 0 0 0) port S.id ≠ .ok raw := by
    intro port raw h
    rw [hu] at h
    unfold Tracker.newRequest Tracker.parseAnnounce at h
    rw [UrlParse.announce_none.mpr ha] at h
    split at h
    · cases h
    · rename_i hq
      split at hq <;> cases hq
  constructor
  · refine ⟨_, d', .tail _ _ (.single (.open d d' o true tor g1 hl (dirExec_mono hx))) (.panic o tor _ d' ?_ ?_), ?_⟩
    · intro raw h
      unfold asks at h
      rw [v1, Res.ok_bind, v2, Res.ok_bind] at h
      exact absurd h (hreq _ _)
    · unfold finish
      rw [v1, Res.ok_bind, v2, Res.ok_bind, hget]
      rfl
    · exact (ocatAll_end _ hs.nonneg hs.distinct _ _ _ hx.plain).2.2.1 rfl
  · intro st σ out d'' hr
    obtain ⟨w', data', tor', raw', resp, m1, m2, m3, l1', l2', -, r1, -⟩ := (C101_serves_iff_partial S args d ht (by
      intro o' readOk tor' ho hl'
      rw [g1] at ho
      cases ho
      obtain ⟨x, hx1, hx2, -⟩ := load_some hl'
      rw [l1] at hx1
      cases hx1
      rw [l2] at hx2
      cases hx2
      exact ⟨hs, h64⟩)).1 ⟨st, σ, out, d'', hr⟩
    obtain ⟨o', g1', m4'⟩ := (C75_swarm_partial args).1 w' ⟨m1, m2, m3⟩
    rw [g1] at g1'
    cases g1'
    rw [← m4'.input, l1] at l1'
    cases l1'
    rw [← m4'.wd, l2] at l2'
    cases l2'
    exact hreq _ _ r1

/-! ### examples -/

/-- the torrent file of C101's example with the announce URL `:/b` -/
def badTorrent : Bytes := ascii "d8:announce3::/b4:infod6:lengthi4e4:name1:n12:piece lengthi4e6:pieces20:aaaaaaaaaaaaaaaaaaaaee"

def badTree : Disk := ⟨fun p => if p = ascii "/t" then some badTorrent else none, fun q => q = []⟩

def badSetting : Setting := ⟨{ Start.exWorld2 with parseURL := UrlParse.announce }, fun _ _ => ascii "?", [], fun _ => false, List.replicate 20 65, false⟩

theorem bad_loads : ∃ t, FromTorrentFile badSetting.w.H (some badTorrent) badSetting.w.spareFile (ascii "/w") = .ok t ∧ t.announce = ascii ":/b" ∧
    t.info.pieceLen = 4 ∧ t.info.flist.map Entry.base = [⟨4, ascii "n", ascii "/w/n"⟩] ∧ t.info.length = 4 := by
  have hd : Decode badTorrent [] = .ok (.dict [(ascii "announce", .str (ascii ":/b")), (ascii "info", .dict Tracker.exInfo4)]) := by decide +kernel
  obtain ⟨ti, h4⟩ := Res.isOk_iff (r := FromDict Tracker.exInfo4 (ascii "/w")) (by decide +kernel)
  have h : (match FromDict Tracker.exInfo4 (ascii "/w") with
    | .ok ti => decide (ti.pieceLen = 4 ∧ ti.flist.map Entry.base = [⟨4, ascii "n", ascii "/w/n"⟩] ∧ ti.length = 4)
    | _ => false) = true := by decide +kernel
  rw [h4] at h
  simp only [decide_eq_true_eq] at h
  exact ⟨_, fromTorrentFile_eq (an := ascii ":/b") (infod := Tracker.exInfo4) hd (by decide +kernel) (by decide +kernel) h4 badSetting.w.H, rfl, h⟩

theorem ex_main : main exArgs = .swarm { defaults with input := ascii "/t", wd := ascii "/w", port := 7000, uplim := -1, dnlim := -1 } := by decide +kernel

/-- the hypotheses of `C101_refuted_url` -/
example : ∃ w tor, badSetting.w.parseURL = UrlParse.announce ∧ Tree badSetting.cwd badTree ∧ Means exArgs w ∧ w.input ≠ [] ∧ w.cmd = ascii "swarm" ∧ badTree.files w.input = some badTorrent ∧
    FromTorrentFile badSetting.w.H (some badTorrent) badSetting.w.spareFile w.wd = .ok tor ∧ NothingInTheWay badSetting.cwd tor.info.flist badTree ∧ Sensible tor.info ∧ Sizes64 tor.info ∧
    ¬ UrlSpec.IsURL tor.announce := by
  obtain ⟨t, e1, e2, h3, h5, h6⟩ := bad_loads
  have hb : ∀ e ∈ t.info.flist, e.base = ⟨4, ascii "n", ascii "/w/n"⟩ := by
    intro e he
    have : e.base ∈ t.info.flist.map Entry.base := List.mem_map_of_mem he
    rw [h5, List.mem_singleton] at this
    exact this
  have hs : Sensible t.info := by
    refine ⟨by rw [h3]; decide, by rw [h3]; decide, fun e he => by rw [hb e he]; decide, ?_⟩
    rw [show (fun e : Entry => e.base.localPath) = EntryBase.localPath ∘ Entry.base from rfl, ← List.map_map, h5]
    decide +kernel
  obtain ⟨w, m1, m2, m3, m4⟩ := (C75_swarm_partial exArgs).2 _ ex_main
  have above_one : ∀ (q r : Place) (x : Bytes), r ≠ [] → [x] = q ++ r → q = [] := by
    intro q r x hr h
    have := congrArg List.length h
    have := List.length_pos_iff.mpr hr
    simp only [List.length_append, List.length_cons, List.length_nil] at *
    exact List.length_eq_zero_iff.mp (by omega)
  have onlyT : ∀ p c, badTree.files p = some c → p = ascii "/t" := by
    intro p c h
    simp only [badTree] at h
    split at h
    · assumption
    · cases h
  have rt : resolve [] (ascii "/t") = [ascii "t"] := by decide +kernel
  have rn : resolve [] (ascii "/w/n") = [ascii "w", ascii "n"] := by decide +kernel
  refine ⟨w, t, rfl, ⟨rfl, ?_, ?_, ?_⟩, m1, m2, m3, ?_, ?_, ?_, hs, ⟨by rw [h3]; decide, by rw [h6]; decide, fun e he => by rw [hb e he]; decide⟩, ?_⟩
  · rintro p c q hp ⟨r, hr, hq⟩
    rw [onlyT p c hp, show badSetting.cwd = [] from rfl, rt] at hq
    exact above_one q r _ hr hq
  · rintro p q rfl ⟨r, hr, h⟩
    exact absurd (List.append_eq_nil_iff.mp h.symm).2 hr
  · intro p c hp h
    rw [onlyT p c hp, show badSetting.cwd = [] from rfl, rt] at h
    cases h
  · rw [← m4.input]; rfl
  · rw [← m4.wd]; exact e1
  · intro e he
    rw [hb e he, show badSetting.cwd = [] from rfl, rn]
    refine ⟨fun h => (by cases h), ?_⟩
    rintro q ⟨r, hr, hq⟩
    constructor
    · intro p hp
      cases h : badTree.files p with
      | none => rfl
      | some c =>
        rw [onlyT p c h, rt] at hp
        rw [← hp] at hq
        simp only [List.cons_append, List.nil_append, List.cons.injEq] at hq
        exact absurd hq.1 (by decide)
    · intro f hf
      rw [hb f hf, rn]
      rintro rfl
      exact hr (by simpa using hq)
  · rw [e2, ← UrlParse.parse_none]
    decide +kernel

/-- the hypothesis of `C101_goes_on` in the state in which the files have been opened -/
example (o : Opts) (out : Bytes) : ∃ t, t.announce = ascii ":/b" ∧ ∀ o' tor out' d, Proc.opened o t out badTree = .opened o' tor out' d → TorrentString badSetting.fv tor ≠ .timeout := by
  obtain ⟨t, e1, e2, h3, h5, h6⟩ := bad_loads
  refine ⟨t, e2, fun o' tor out' d h => ?_⟩
  cases h
  obtain ⟨text, ht⟩ := torrentString_ok badSetting.fv t ⟨by rw [h3]; decide, by rw [h6]; decide, fun e he => by
    have : e.base ∈ t.info.flist.map Entry.base := List.mem_map_of_mem he
    rw [h5, List.mem_singleton] at this
    rw [this]; decide⟩
  rw [ht]; simp

/-- the hypotheses of `C101_refused`: no torrent file, and one that loading panics on -/
example : ∃ w, Means exArgs w ∧ w.input ≠ [] ∧ w.cmd = ascii "swarm" ∧ FromTorrentFile badSetting.w.H ((⟨fun _ => none, fun q => q = []⟩ : Disk).files w.input) [] w.wd = .err .os ∧
    FromTorrentFile badSetting.w.H ((⟨fun _ => some emptyPathFile, fun q => q = []⟩ : Disk).files w.input) [] w.wd = .panic := by
  obtain ⟨w, m1, m2, m3, m4⟩ := (C75_swarm_partial exArgs).2 _ ex_main
  refine ⟨w, m1, m2, m3, rfl, ?_⟩
  rw [← m4.wd]
  exact C35_refuted_empty_path _

/-- the hypotheses of `C101_usage`: without arguments, and with another command -/
example : (¬ ∃ w, Means [] w ∧ w.input ≠ [] ∧ (w.cmd = ascii "swarm" ∨ w.cmd = ascii "info")) ∧
    ¬ ∃ w, Means [ascii "-i", ascii "t", ascii "-cmd", ascii "x"] w ∧ w.input ≠ [] ∧ (w.cmd = ascii "swarm" ∨ w.cmd = ascii "info") := by
  have : ∀ args, main args = .panic → ¬ ∃ w, Means args w ∧ w.input ≠ [] ∧ (w.cmd = ascii "swarm" ∨ w.cmd = ascii "info") := by
    rintro args h ⟨w, h1, h2, h3 | h3⟩
    · obtain ⟨o, e, -⟩ := (C75_swarm_partial args).1 w ⟨h1, h2, h3⟩
      rw [h] at e; cases e
    · obtain ⟨o, e, -⟩ := (C75_info_partial args).1 w ⟨h1, h2, h3⟩
      rw [h] at e; cases e
  exact ⟨this _ (by decide +kernel), this _ (by decide +kernel)⟩

end Verif.Program
