import Verif.Model.Program
import Verif.Props.Start
import Verif.Props.DirFS
import Verif.Props.CommandLine
import Verif.Props.Show
/-
Property C101: the whole program, from the command line to the peers.
-/
set_option autoImplicit false

namespace Verif.Program
open Verif.Utils Verif.Flags Verif.Startup Verif.Torrent Verif.DirFS Verif.FS Verif.Bencode Verif.Lts Verif.Files Verif.FileIO Verif.Show Verif.ShowSpec
  Verif.Bencode.Spec Verif.Peers Verif.Session Verif.P2P Verif.Wire Verif.Layout Verif.Human Verif.PeersSpec Verif.SessionSpec Verif.Dirs

/-- a call that may fail spuriously may also not do so -/
theorem dirExec_mono {sp : Bool} {cwd : Place} {p : Prog} {d d' : Disk} {o : Outcome} (h : DirExec false cwd p d o d') : DirExec sp cwd p d o d' := by
  induction h with
  | ret r d => exact .ret _ _
  | crash p d => exact .crash _ _
  | open_ok path k d d' o c h1 _ ih => exact .open_ok _ _ _ _ _ c h1 ih
  | open_fail path k d d' o h1 _ ih => exact .open_fail _ _ _ _ _ (h1.imp id fun h => by cases h) ih
  | mkdir_ok path k d d' o h1 _ ih => exact .mkdir_ok _ _ _ _ _ h1 ih
  | mkdir_fail path k d d' o _ ih => exact .mkdir_fail _ _ _ _ _ ih
  | mkdir_part path k d d' o q h1 h2 h3 _ ih => exact .mkdir_part _ _ _ _ _ q h1 h2 h3 ih
  | trunc_ok path k d d' o h1 h2 _ ih => exact .trunc_ok _ _ _ _ _ h1 h2 ih
  | trunc_fail path k d d' o _ ih => exact .trunc_fail _ _ _ _ _ ih
  | size_ok path k d d' o c h1 _ ih => exact .size_ok _ _ _ _ _ c h1 ih
  | size_fail path k d d' o _ ih => exact .size_fail _ _ _ _ _ ih
  | truncate_ok path n k d d' o c h1 _ ih => exact .truncate_ok _ _ _ _ _ _ c h1 ih
  | truncate_fail path n k d d' o _ ih => exact .truncate_fail _ _ _ _ _ _ ih
  | write_ok path pos data k d d' o c h1 _ ih => exact .write_ok _ _ _ _ _ _ _ c h1 ih
  | write_fail path pos data k d d' o c j h1 _ ih => exact .write_fail _ _ _ _ _ _ _ c j h1 ih
  | write_crash path pos data k d c j h1 => exact .write_crash _ _ _ _ _ c j h1

theorem fileLines_ok (fv : Int → Int → Bytes) (es : List Entry) (h64 : ∀ e ∈ es, e.base.length < 2 ^ 63) : ∃ out, fileLines fv es = .ok out := by
  induction es with
  | nil => exact ⟨[], rfl⟩
  | cons e es ih =>
    obtain ⟨out, h⟩ := ih fun x hx => h64 x (by simp [hx])
    obtain ⟨a, b, u, g, -⟩ := humans_ok e.base.length (h64 e (by simp))
    refine ⟨padLeft 8 (fv a b ++ u) ++ ascii " : " ++ e.base.torPath ++ [10] ++ out, ?_⟩
    rw [fileLines, fileLine, g, h]
    rfl

/-- the text of a torrent with 64-bit sizes exists, whatever its names are -/
theorem torrentString_ok (fv : Int → Int → Bytes) (tor : Torrent) (h : Sizes64 tor.info) : ∃ text, TorrentString fv tor = .ok text := by
  obtain ⟨a, b, u, g, -⟩ := humans_ok _ h.pieceLen
  obtain ⟨a', b', u', g', -⟩ := humans_ok _ h.length
  obtain ⟨out, ho⟩ := fileLines_ok fv _ h.files
  have h1 : ∃ x, pieceLine fv tor.info = .ok x := ⟨_, by rw [pieceLine, g]⟩
  have h2 : ∃ x, lengthLines tor.info.length = .ok x := ⟨_, by rw [lengthLines, g']⟩
  obtain ⟨x1, h1⟩ := h1
  obtain ⟨x2, h2⟩ := h2
  unfold TorrentString
  rw [h1, Res.ok_bind, h2, Res.ok_bind]
  cases tor.info.isSingle with
  | true => exact ⟨_, rfl⟩
  | false => simp only [Bool.false_eq_true, if_false]; rw [ho]; exact ⟨_, rfl⟩

theorem swarmString_ok (fv : Int → Int → Bytes) (v6 : Peer.IP → Bytes) (st : Started) (h : Sizes64 st.tor.info) : ∃ text, SwarmString fv v6 st = .ok text := by
  obtain ⟨x, h3⟩ := torrentString_ok fv st.tor h
  refine ⟨x ++ [10] ++ StateString st.state ++ [10] ++ ListString v6 st.peers, ?_⟩
  unfold SwarmString
  rw [h3]
  rfl

/-- what is true of the process at any time -/
def Inv (S : Setting) (args : List Bytes) (d : Disk) : Proc → Prop
  | .begin d' => d' = d
  | .opened o tor out d' => main args = .swarm o ∧ out = limits o ∧ (∃ readOk, load S o readOk d = .ok tor) ∧
      DirExec S.sp S.cwd (OCATAll tor.info.flist) d (.done (.ok ())) d'
  | .serving st σ out d' => ∃ o readOk text, main args = .swarm o ∧ load S o readOk d = .ok st.tor ∧
      DirExec S.sp S.cwd (OCATAll st.tor.info.flist) d (.done (.ok ())) d' ∧ finish S.w (options o) S.id st.tor d'.files = .ok st ∧
      (∀ raw, asks S o st.tor d'.files = .ok raw → S.silent raw = false) ∧
      SwarmString S.fv S.w.v6 st = .ok text ∧ out = limits o ++ ascii "\n " ++ text ++ ascii "\n" ∧ Reach (Start.Step (Start.env S.w st) st.port) (Start.begin st) σ
  | .ended status out d' => (status = 0 ∧ d' = d ∧ (main args = .exit 0 ∧ out = [] ∨ ∃ (o : Opts) (readOk : Bool) (text : Bytes), main args = .info o ∧
        CmdTorInfo S.w.H S.fv (if readOk then d.files o.input else none) S.w.spareFile o.wd = .ok text ∧ out = limits o ++ text ++ done)) ∨
      ((status = 1 ∨ status = 2) ∧ (d' = d ∨ ∃ o readOk tor outcome, main args = .swarm o ∧ load S o readOk d = .ok tor ∧
        DirExec S.sp S.cwd (OCATAll tor.info.flist) d outcome d'))

theorem inv_step (S : Setting) (args : List Bytes) (d : Disk) (p p' : Proc) (hi : Inv S args d p) (h : Step S args p p') : Inv S args d p' := by
  cases h with
  | exit d0 c h =>
    subst hi
    rcases C75_otherwise args with ⟨o, e⟩ | ⟨o, e⟩ | e | e | e <;> rw [h] at e <;> cases e
    · exact .inl ⟨rfl, rfl, .inl ⟨h, rfl⟩⟩
    · exact .inr ⟨.inr rfl, .inl rfl⟩
  | badOpts d0 h => subst hi; exact .inr ⟨.inr rfl, .inl rfl⟩
  | invalid d0 o h => rcases C75_otherwise args with ⟨o, e⟩ | ⟨o, e⟩ | e | e | e <;> rw [h] at e <;> cases e
  | info d0 o readOk text h h1 => subst hi; exact .inl ⟨rfl, rfl, .inr ⟨o, readOk, text, h, h1, rfl⟩⟩
  | infoFatal d0 o readOk e h h1 => subst hi; exact .inr ⟨.inl rfl, .inl rfl⟩
  | infoPanic d0 o readOk h h1 => subst hi; exact .inr ⟨.inr rfl, .inl rfl⟩
  | rejected d0 o readOk e h h1 => subst hi; exact .inr ⟨.inl rfl, .inl rfl⟩
  | loadPanic d0 o readOk h h1 => subst hi; exact .inr ⟨.inr rfl, .inl rfl⟩
  | noFiles d0 d' o readOk tor e h h1 h2 => subst hi; exact .inr ⟨.inl rfl, .inr ⟨o, readOk, tor, _, h, h1, h2⟩⟩
  | filesPanic d0 d' o readOk tor h h1 h2 => subst hi; exact .inr ⟨.inr rfl, .inr ⟨o, readOk, tor, _, h, h1, h2⟩⟩
  | «open» d0 d' o readOk tor h h1 h2 => subst hi; exact ⟨h, rfl, ⟨readOk, h1⟩, h2⟩
  | fatal o tor out d0 e hs h =>
    obtain ⟨g1, g2, ⟨readOk, g3⟩, g4⟩ := hi
    exact .inr ⟨.inl rfl, .inr ⟨o, readOk, tor, _, g1, g3, g4⟩⟩
  | panic o tor out d0 hs h =>
    obtain ⟨g1, g2, ⟨readOk, g3⟩, g4⟩ := hi
    exact .inr ⟨.inr rfl, .inr ⟨o, readOk, tor, _, g1, g3, g4⟩⟩
  | printPanic o tor out d0 st hs h h1 =>
    obtain ⟨g1, g2, ⟨readOk, g3⟩, g4⟩ := hi
    exact .inr ⟨.inr rfl, .inr ⟨o, readOk, tor, _, g1, g3, g4⟩⟩
  | start o tor out d0 st text hs h h1 =>
    obtain ⟨g1, g2, ⟨readOk, g3⟩, g4⟩ := hi
    have hst : st.tor = tor := by
      obtain ⟨-, -, -, -, -, -, -, -, rfl⟩ := finish_ok h
      rfl
    subst hst
    exact ⟨o, readOk, text, g1, g3, g4, h, hs, h1, by rw [g2], .refl⟩
  | work st σ σ' out d0 h =>
    obtain ⟨o, readOk, text, g1, g2, g3, g4, g5, g6, g7, g8⟩ := hi
    exact ⟨o, readOk, text, g1, g2, g3, g4, g5, g6, g7, .tail _ _ g8 h⟩
  | died st σ out d0 h =>
    obtain ⟨o, readOk, text, g1, g2, g3, g4, g5, g6, g7, g8⟩ := hi
    exact .inr ⟨.inr rfl, .inr ⟨o, readOk, st.tor, _, g1, g2, g3⟩⟩
  | spin st σ out d0 h => exact hi

theorem inv (S : Setting) (args : List Bytes) (d : Disk) (p : Proc) (h : Reach (Step S args) (.begin d) p) : Inv S args d p :=
  h.keep (Q := Inv S args d) (fun a b => inv_step S args d a b) rfl

theorem load_some {S : Setting} {o : Opts} {readOk : Bool} {d : Disk} {tor : Torrent} (h : load S o readOk d = .ok tor) :
    ∃ data, d.files o.input = some data ∧ FromTorrentFile S.w.H (some data) S.w.spareFile o.wd = .ok tor ∧ load S o true d = .ok tor := by
  unfold load at h
  cases readOk with
  | false => cases h
  | true =>
    simp only [if_true] at h
    cases hd : d.files o.input with
    | none => rw [hd] at h; cases h
    | some data => rw [hd] at h; exact ⟨data, rfl, h, by unfold load; rw [if_pos rfl, hd]; exact h⟩

theorem port_shows {o : Opts} {w : Wanted} (h : Shows o w) : (options o).port = UInt16.ofNat w.port := by
  unfold options
  rw [h.port]
  apply UInt16.toNat_inj.mp
  simp

/-- **C101**, exactly when the program comes to serve: the command line asks for it and means options with which the torrent file can be loaded, nothing is in the
way of the torrent's files, and the tracker answers the announcement properly.  (For torrents with sensible metadata.) -/
theorem C101_serves_iff_partial (S : Setting) (args : List Bytes) (d : Disk) (ht : Tree S.cwd d)
    (hg : ∀ o readOk tor, main args = .swarm o → load S o readOk d = .ok tor → Sensible tor.info ∧ Sizes64 tor.info) :
    (∃ st σ out d', Reach (Step S args) (.begin d) (.serving st σ out d')) ↔
      ∃ (w : Wanted) (data : Bytes) (tor : Torrent) (raw : Bytes) (resp : Tracker.Response), Means args w ∧ w.input ≠ [] ∧ w.cmd = ascii "swarm" ∧
        d.files w.input = some data ∧ FromTorrentFile S.w.H (some data) S.w.spareFile w.wd = .ok tor ∧ NothingInTheWay S.cwd tor.info.flist d ∧
        Tracker.newRequest S.w.parseURL tor (Tracker.NewStats 0 0 0) (UInt16.ofNat w.port) S.id = .ok raw ∧ S.silent raw = false ∧
        Tracker.doRequest S.w.v6 S.w.parseIP (S.w.http raw) S.w.spareBody = .ok resp := by
  constructor
  · rintro ⟨st, σ, out, d', h⟩
    obtain ⟨o, readOk, text, g1, g2, g3, g4, g5, g6, g7, g8⟩ := inv S args d _ h
    obtain ⟨w, m1, m2, m3, m4⟩ := (C75_swarm_partial args).2 o g1
    obtain ⟨data, l1, l2, -⟩ := load_some g2
    obtain ⟨hs, -⟩ := hg o readOk _ g1 g2
    obtain ⟨b0, b, resp, ppt, f1, f2, f3, f4, f5⟩ := finish_ok g4
    unfold Tracker.Get at f3
    obtain ⟨raw, r1, r2⟩ := Res.bind_eq_ok.mp f3
    refine ⟨w, data, st.tor, raw, resp, m1, m2, m3, by rw [← m4.input]; exact l1, by rw [← m4.wd]; exact l2,
      (C88_storable_iff_partial S.sp S.cwd _ hs.nonneg d ht).1 ⟨d', g3⟩, by rw [← port_shows m4]; exact r1, g5 raw ?_, r2⟩
    unfold asks
    rw [f1, Res.ok_bind, f2, Res.ok_bind]
    exact r1
  · rintro ⟨w, data, tor, raw, resp, m1, m2, m3, l1, l2, hn, hr, hq, ha⟩
    obtain ⟨o, g1, m4⟩ := (C75_swarm_partial args).1 w ⟨m1, m2, m3⟩
    rw [← m4.input] at l1
    rw [← m4.wd] at l2
    rw [← port_shows m4] at hr
    have hl : load S o true d = .ok tor := by unfold load; rw [if_pos rfl, l1]; exact l2
    obtain ⟨hs, h64⟩ := hg o true tor g1 hl
    obtain ⟨d', hx⟩ := (C88_storable_iff_partial false S.cwd _ hs.nonneg d ht).2 hn
    have hprep := C26_prepared _ _ _ _ (loaded_accepted l2 hs) (by rw [List.map_map]; exact hs.distinct) d.files d'.files hx.plain
    obtain ⟨b0, b, v1, v2, -⟩ := validated (H := S.w.H) (loaded_accepted l2 hs) hprep
    obtain ⟨ppt, p1, -⟩ := PieceTracker.new_spec (UInt32.ofNat tor.info.numPieces).toNat
    have hget : Tracker.Get S.w.v6 S.w.parseIP S.w.parseURL S.w.http S.w.spareBody tor (Tracker.NewStats 0 0 0) (options o).port S.id = .ok resp := by
      unfold Tracker.Get
      rw [hr, Res.ok_bind, ha]
    have hfin : ∃ st : Started, finish S.w (options o) S.id tor d'.files = .ok st ∧ st.tor = tor := by
      refine ⟨⟨tor, ⟨tor.info, b, openedAll tor.info, d'.files⟩, resp.state, resp.peers, ppt, Tracker.NewStats 0 0 0, S.id, (options o).port⟩, ?_, rfl⟩
      unfold finish
      rw [v1, Res.ok_bind, v2, Res.ok_bind, hget, Res.ok_bind, p1, Res.ok_bind]
    obtain ⟨st, hfin, hst⟩ := hfin
    obtain ⟨text, htext⟩ := swarmString_ok S.fv S.w.v6 st (by rw [hst]; exact h64)
    have hask : ∀ r, asks S o tor d'.files = .ok r → S.silent r = false := by
      intro r h
      unfold asks at h
      rw [v1, Res.ok_bind, v2, Res.ok_bind, hr] at h
      cases h
      exact hq
    exact ⟨st, Start.begin st, _, d', .tail _ _ (.single (.open d d' o true tor g1 hl (dirExec_mono hx))) (.start o tor _ d' st text hask hfin htext)⟩

/-- the disk as it is now -/
def Proc.disk : Proc → Disk
  | .begin d | .opened _ _ _ d | .serving _ _ _ d | .ended _ _ d => d

theorem started {S : Setting} {args : List Bytes} {d d' : Disk} {st : Started} {σ : Start.State} {out : Bytes} (h : Reach (Step S args) (.begin d) (.serving st σ out d')) :
    ∃ o readOk text, main args = .swarm o ∧ NewSwarm S.sp S.w (options o) S.id readOk d.files (.ok st) d'.files ∧ SwarmString S.fv S.w.v6 st = .ok text ∧
      out = limits o ++ ascii "\n " ++ text ++ ascii "\n" ∧ Reach (Start.Step (Start.env S.w st) (options o).port) (Start.begin st) σ := by
  obtain ⟨o, readOk, text, g1, g2, g3, g4, g5, g6, g7, g8⟩ := inv S args d _ h
  have := NewSwarm.ready (sp := S.sp) (w := S.w) (o := options o) (id := S.id) (readOk := readOk) d.files d'.files st.tor g2 g3.plain
  rw [g4] at this
  have hp : st.port = (options o).port := by
    obtain ⟨b0, b, resp, ppt, -, -, -, -, f5⟩ := finish_ok g4
    rw [f5]
  exact ⟨o, readOk, text, g1, this, g6, g7, by rw [← hp]; exact g8⟩

/-- **C101**: what serves is what was asked for: the torrent of the file that the command line names, in the directory and with the port of the command line; the torrent's files
have their lengths and old contents, all other files are as they were. -/
theorem C101_options (S : Setting) (hsp : S.sp = false) (args : List Bytes) (d d' : Disk) (st : Started) (σ : Start.State) (out : Bytes)
    (h : Reach (Step S args) (.begin d) (.serving st σ out d')) (hs : Sensible st.tor.info) (hn : st.tor.info.numPieces < 2 ^ 32) :
    ∃ w : Wanted, Means args w ∧ w.input ≠ [] ∧ w.cmd = ascii "swarm" ∧
      (∃ data, d.files w.input = some data ∧ FromTorrentFile S.w.H (some data) S.w.spareFile w.wd = .ok st.tor) ∧
      (∀ e ∈ st.tor.info.flist, d'.files e.base.localPath = some (prepared (old d.files e.base.localPath) e.base.length.toNat)) ∧
      (∀ p, (∀ e ∈ st.tor.info.flist, p ≠ e.base.localPath) → d'.files p = d.files p) ∧
      ∀ port, σ.listening = some port → port.toNat = w.port % 65536 := by
  obtain ⟨o, readOk, text, g1, g2, g3, g4, g5⟩ := started h
  rw [hsp] at g2
  obtain ⟨w, m1, m2, m3, m4⟩ := (C75_swarm_partial args).2 o g1
  obtain ⟨s1, s2, s3, -⟩ := C71_started _ _ _ _ _ _ _ g2 hs hn
  obtain ⟨data, s4, s5⟩ := s1
  refine ⟨w, m1, m2, m3, ⟨data, by rw [← m4.input]; exact s4, by rw [← m4.wd]; exact s5⟩, ?_, s3, ?_⟩
  · intro e he
    obtain ⟨k, hk⟩ := List.mem_iff_getElem?.mp he
    exact s2 k e hk
  · intro port hp
    rcases (Start.kept g5).port with e | e <;> rw [e] at hp <;> cases hp
    rw [port_shows m4]
    simp

/-- **C101** (partial: as long as the process lives): the peers are served.  For every command line, disk, tracker and behaviour of the peers, whoever keeps to the protocol gets the
greeting and exactly the answers to their messages, from the files as they were when the program was started. -/
theorem C101_served_partial (S : Setting) (hsp : S.sp = false) (hH : ∀ x, (S.w.H x).length = 20) (hid : S.id.length = 20) (args : List Bytes) (d d' : Disk) (st : Started)
    (σ : Start.State) (out : Bytes) (h : Reach (Step S args) (.begin d) (.serving st σ out d')) (hs : Sensible st.tor.info) (hn : st.tor.info.numPieces < 2 ^ 32)
    (hc : σ.client.crashed = false) (c : Conn) (hm : c ∈ σ.client.conns) (ws : List Wire.Msg)
    (hw : Delivered (prepAll st.tor.info d.files).flatten st.tor.info.pieceLen.toNat st.tor.info.numPieces c.got ws) :
    ∃ good : Nat → Bool, (∀ i, i < st.tor.info.numPieces →
        good i = decide (S.w.H (pieceOf (prepAll st.tor.info d.files).flatten st.tor.info.pieceLen.toNat i) = range st.tor.info.hashes (20 * i) 20)) ∧
      ∃ start done rest, Greeting st.tor.infohash S.id st.core.bf.data start ∧ ws = done ++ rest ∧ c.handled = done.map received ∧
        c.out.filter (· ≠ wire .keepAlive) = start ++ (replies (prepAll st.tor.info d.files).flatten st.tor.info.pieceLen.toNat good done).map wire ∧
        (c.todo = [] → rest = []) ∧ c.recv ≠ .hangs := by
  obtain ⟨o, readOk, text, g1, g2, g3, g4, g5⟩ := started h
  rw [hsp] at g2
  exact Start.C99_served_partial S.w hH (options o) S.id hid readOk d.files d'.files st g2 hs hn σ g5 hc c hm ws hw

/-- **C101**: once it serves, the program ends only by a panic of one of its goroutines, with status 2. -/
theorem C101_ends (S : Setting) (args : List Bytes) (st : Started) (σ : Start.State) (out out' : Bytes) (d d' : Disk) (s : Nat)
    (h : Reach (Step S args) (.serving st σ out d) (.ended s out' d')) :
    s = 2 ∧ out' = out ∧ d' = d ∧ ∃ σ', Reach (Start.Step (Start.env S.w st) st.port) σ σ' ∧ σ'.client.crashed = true := by
  have := h.keep (Q := fun p => (∃ σ', Reach (Start.Step (Start.env S.w st) st.port) σ σ' ∧ p = .serving st σ' out d) ∨
      p = .ended 2 out d ∧ ∃ σ', Reach (Start.Step (Start.env S.w st) st.port) σ σ' ∧ σ'.client.crashed = true) (by
    rintro a b (⟨σ', hr, rfl⟩ | ⟨rfl, -⟩) hstep
    · cases hstep with
      | work _ _ σ'' _ _ h => exact .inl ⟨σ'', .tail _ _ hr h, rfl⟩
      | died _ _ _ _ h => exact .inr ⟨rfl, σ', hr, h⟩
      | spin _ _ _ _ h => exact .inl ⟨σ', hr, rfl⟩
    · cases hstep) (.inl ⟨σ, .refl, rfl⟩)
  rcases this with ⟨σ', -, e⟩ | ⟨e, hσ⟩
  · cases e
  · cases e
    exact ⟨rfl, rfl, rfl, hσ⟩

/-- **C101**, the exit status: 0 means that `info` has printed the torrent (or that help was asked for), and nothing on the disk has changed; everything else that ends
has status 1 or 2. -/
theorem C101_status (S : Setting) (args : List Bytes) (d d' : Disk) (s : Nat) (out : Bytes) (h : Reach (Step S args) (.begin d) (.ended s out d')) :
    s = 0 ∧ d' = d ∧ (main args = .exit 0 ∨ ∃ (w : Wanted) (data : Bytes) (tor : Torrent) (text head : Bytes), Means args w ∧ w.input ≠ [] ∧ w.cmd = ascii "info" ∧
        d.files w.input = some data ∧ FromTorrentFile S.w.H (some data) S.w.spareFile w.wd = .ok tor ∧ TorrentString S.fv tor = .ok text ∧
        out = head ++ text ++ ascii "\n\n\nDONE\n") ∨
      s = 1 ∨ s = 2 := by
  rcases inv S args d _ h with ⟨rfl, rfl, h⟩ | ⟨h, -⟩
  · refine .inl ⟨rfl, rfl, ?_⟩
    rcases h with ⟨h, -⟩ | ⟨o, readOk, text, h1, h2, h3⟩
    · exact .inl h
    · obtain ⟨w, m1, m2, m3, m4⟩ := (C75_info_partial args).2 o h1
      unfold CmdTorInfo at h2
      obtain ⟨tor, t1, t2⟩ := Res.bind_eq_ok.mp h2
      obtain ⟨txt, t3, t4⟩ := Res.bind_eq_ok.mp t2
      cases t4
      obtain ⟨data, l1, l2, -⟩ := load_some (S := S) (o := o) (readOk := readOk) (d := d') (tor := tor) t1
      refine .inr ⟨w, data, tor, txt, limits o, m1, m2, m3, by rw [← m4.input]; exact l1, by rw [← m4.wd]; exact l2, t3, ?_⟩
      rw [h3, List.append_assoc, List.append_assoc, List.append_assoc]
      rfl
  · exact .inr h

/-- **C101**: if `info` is asked for a torrent file that can be loaded (with 64-bit sizes), it is printed. -/
theorem C101_info (S : Setting) (args : List Bytes) (d : Disk) (w : Wanted) (hm : Means args w) (hi : w.input ≠ []) (hc : w.cmd = ascii "info") (data : Bytes)
    (hd : d.files w.input = some data) (tor : Torrent) (hf : FromTorrentFile S.w.H (some data) S.w.spareFile w.wd = .ok tor) (text : Bytes)
    (ht : TorrentString S.fv tor = .ok text) :
    Reach (Step S args) (.begin d) (.ended 0 (decInt (wrap64 w.up) ++ ascii "\n" ++ decInt (wrap64 w.down) ++ ascii "\n" ++ text ++ ascii "\n\n\nDONE\n") d) := by
  obtain ⟨o, g1, m4⟩ := (C75_info_partial args).1 w ⟨hm, hi, hc⟩
  have h1 : CmdTorInfo S.w.H S.fv (if true then d.files o.input else none) S.w.spareFile o.wd = .ok (text ++ [10]) := by
    unfold CmdTorInfo
    rw [m4.input, m4.wd, if_pos rfl, hd, hf, Res.ok_bind, ht]
    rfl
  have := Step.info (S := S) (args := args) d o true _ g1 h1
  rw [show limits o ++ (text ++ [10]) ++ done = decInt (wrap64 w.up) ++ ascii "\n" ++ decInt (wrap64 w.down) ++ ascii "\n" ++ text ++ ascii "\n\n\nDONE\n" by
    unfold limits
    rw [m4.up, m4.down, decInt_eq, decInt_eq, ← List.append_assoc, List.append_assoc _ [10] done]
    rfl] at this
  exact .single this

/-- **C101**: whatever happens, only the files of the torrent are changed, and no data that belongs to the torrent is lost. -/
theorem C101_harmless (S : Setting) (hsp : S.sp = false) (args : List Bytes) (d : Disk) (p : Proc) (h : Reach (Step S args) (.begin d) p)
    (hg : ∀ o readOk tor, main args = .swarm o → load S o readOk d = .ok tor → Sensible tor.info) :
    p.disk = d ∨ ∃ (w : Wanted) (data : Bytes) (tor : Torrent), Means args w ∧ w.cmd = ascii "swarm" ∧ d.files w.input = some data ∧
      FromTorrentFile S.w.H (some data) S.w.spareFile w.wd = .ok tor ∧ (∀ q, (∀ e ∈ tor.info.flist, q ≠ e.base.localPath) → p.disk.files q = d.files q) ∧
      ∀ e ∈ tor.info.flist, prepared (old p.disk.files e.base.localPath) e.base.length.toNat = prepared (old d.files e.base.localPath) e.base.length.toNat := by
  have key : ∀ (o : Opts) (readOk : Bool) (tor : Torrent) (oc : Outcome) (d' : Disk), main args = .swarm o → load S o readOk d = .ok tor →
      DirExec S.sp S.cwd (OCATAll tor.info.flist) d oc d' → ∃ (w : Wanted) (data : Bytes) (tor : Torrent), Means args w ∧ w.cmd = ascii "swarm" ∧
      d.files w.input = some data ∧ FromTorrentFile S.w.H (some data) S.w.spareFile w.wd = .ok tor ∧
      (∀ q, (∀ e ∈ tor.info.flist, q ≠ e.base.localPath) → d'.files q = d.files q) ∧
      ∀ e ∈ tor.info.flist, prepared (old d'.files e.base.localPath) e.base.length.toNat = prepared (old d.files e.base.localPath) e.base.length.toNat := by
    intro o readOk tor oc d' g1 g2 g3
    rw [hsp] at g3
    obtain ⟨w, m1, m2, m3, m4⟩ := (C75_swarm_partial args).2 o g1
    obtain ⟨data, l1, l2, -⟩ := load_some g2
    have hs := hg o readOk tor g1 g2
    obtain ⟨e1, e2, -⟩ := ocatAll_end _ hs.nonneg hs.distinct _ _ _ g3.plain
    exact ⟨w, data, tor, m1, m3, by rw [← m4.input]; exact l1, by rw [← m4.wd]; exact l2, e2, e1⟩
  have hi := inv S args d p h
  cases p with
  | begin d' => exact .inl hi
  | opened o tor out d' =>
    obtain ⟨g1, -, ⟨readOk, g3⟩, g4⟩ := hi
    exact .inr (key o readOk tor _ d' g1 g3 g4)
  | serving st σ out d' =>
    obtain ⟨o, readOk, text, g1, g2, g3, -⟩ := hi
    exact .inr (key o readOk _ _ d' g1 g2 g3)
  | ended s out d' =>
    rcases hi with ⟨-, e, -⟩ | ⟨-, e | ⟨o, readOk, tor, oc, g1, g2, g3⟩⟩
    · exact .inl e
    · exact .inl e
    · exact .inr (key o readOk tor oc d' g1 g2 g3)

/-- everything is ready: the command line asks for it, the torrent file can be loaded, nothing is in the way of its files, and the request `raw` to the tracker can be made -/
structure Ready (S : Setting) (args : List Bytes) (d : Disk) (w : Wanted) (tor : Torrent) (raw : Bytes) : Prop where
  tree : Tree S.cwd d
  line : Means args w
  input : w.input ≠ []
  cmd : w.cmd = ascii "swarm"
  file : ∃ data, d.files w.input = some data ∧ FromTorrentFile S.w.H (some data) S.w.spareFile w.wd = .ok tor
  way : NothingInTheWay S.cwd tor.info.flist d
  request : Tracker.newRequest S.w.parseURL tor (Tracker.NewStats 0 0 0) (UInt16.ofNat w.port) S.id = .ok raw
  sensible : Sensible tor.info
  sizes : Sizes64 tor.info

/-- what is loaded is the torrent of the file -/
theorem Ready.only {S : Setting} {args : List Bytes} {d : Disk} {w : Wanted} {tor : Torrent} {raw : Bytes} (h : Ready S args d w tor raw) {o : Opts} (ho : main args = .swarm o)
    {readOk : Bool} {t : Torrent} (hl : load S o readOk d = .ok t) : t = tor ∧ Shows o w := by
  obtain ⟨o', g1, m4⟩ := (C75_swarm_partial args).1 w ⟨h.line, h.input, h.cmd⟩
  rw [ho] at g1
  cases g1
  obtain ⟨data, l1, l2, -⟩ := load_some hl
  obtain ⟨data', l3, l4⟩ := h.file
  rw [m4.input, l3] at l1
  cases l1
  rw [m4.wd, l4] at l2
  cases l2
  exact ⟨rfl, m4⟩

/-- the way to the opened files -/
theorem Ready.opens {S : Setting} {args : List Bytes} {d : Disk} {w : Wanted} {tor : Torrent} {raw : Bytes} (h : Ready S args d w tor raw) :
    ∃ o d' b0 b, Reach (Step S args) (.begin d) (.opened o tor (limits o) d') ∧ Shows o w ∧ Bf.NewBitfield tor.info.numPieces = .ok b0 ∧
      Swarm.Validate S.w.H d'.files (openedAll tor.info) b0 = .ok b ∧ asks S o tor d'.files = .ok raw := by
  obtain ⟨o, g1, m4⟩ := (C75_swarm_partial args).1 w ⟨h.line, h.input, h.cmd⟩
  obtain ⟨data, l1, l2⟩ := h.file
  rw [← m4.input] at l1
  rw [← m4.wd] at l2
  have hl : load S o true d = .ok tor := by unfold load; rw [if_pos rfl, l1]; exact l2
  have hs := h.sensible
  obtain ⟨d', hx⟩ := (C88_storable_iff_partial false S.cwd _ hs.nonneg d h.tree).2 h.way
  have hprep := C26_prepared _ _ _ _ (loaded_accepted l2 hs) (by rw [List.map_map]; exact hs.distinct) d.files d'.files hx.plain
  obtain ⟨b0, b, v1, v2, -⟩ := validated (H := S.w.H) (loaded_accepted l2 hs) hprep
  refine ⟨o, d', b0, b, .single (.open d d' o true tor g1 hl (dirExec_mono hx)), m4, v1, v2, ?_⟩
  unfold asks
  rw [v1, Res.ok_bind, v2, Res.ok_bind, port_shows m4]
  exact h.request

theorem Ready.good {S : Setting} {args : List Bytes} {d : Disk} {w : Wanted} {tor : Torrent} {raw : Bytes} (h : Ready S args d w tor raw) (o : Opts) (readOk : Bool) (t : Torrent)
    (ho : main args = .swarm o) (hl : load S o readOk d = .ok t) : Sensible t.info ∧ Sizes64 t.info := by
  obtain ⟨rfl, -⟩ := h.only ho hl
  exact ⟨h.sensible, h.sizes⟩

/-- nobody is served without a proper answer of the tracker -/
theorem Ready.never {S : Setting} {args : List Bytes} {d : Disk} {w : Wanted} {tor : Torrent} {raw : Bytes} (h : Ready S args d w tor raw)
    (hno : S.silent raw = true ∨ ∀ resp, Tracker.doRequest S.w.v6 S.w.parseIP (S.w.http raw) S.w.spareBody ≠ .ok resp) :
    ∀ st σ out d', ¬ Reach (Step S args) (.begin d) (.serving st σ out d') := by
  intro st σ out d' hr
  obtain ⟨w', data, tor', raw', resp, m1, m2, m3, l1, l2, -, r1, r2, r3⟩ := (C101_serves_iff_partial S args d h.tree h.good).1 ⟨st, σ, out, d', hr⟩
  obtain ⟨o, g1, m4⟩ := (C75_swarm_partial args).1 w ⟨h.line, h.input, h.cmd⟩
  obtain ⟨o', g1', m4'⟩ := (C75_swarm_partial args).1 w' ⟨m1, m2, m3⟩
  rw [g1] at g1'
  cases g1'
  have hl : load S o true d = .ok tor' := by unfold load; rw [if_pos rfl, m4'.input, l1, m4'.wd]; exact l2
  obtain ⟨rfl, -⟩ := h.only g1 hl
  rw [← port_shows m4', port_shows m4, h.request] at r1
  cases r1
  rcases hno with e | e
  · rw [r2] at e; cases e
  · exact e _ r3

/-- **C101** is false: if the tracker takes the connection and never answers, the program neither serves nor ends, although everything else is ready: `http.Client` is used without a
time limit. -/
theorem C101_refuted_silent (S : Setting) (args : List Bytes) (d : Disk) (w : Wanted) (tor : Torrent) (raw : Bytes) (h : Ready S args d w tor raw) (hq : S.silent raw = true) :
    (∃ p, Reach (Step S args) (.begin d) p ∧ Stuck (Step S args) p ∧ ∀ s out d', p ≠ .ended s out d') ∧
    ∀ st σ out d', ¬ Reach (Step S args) (.begin d) (.serving st σ out d') := by
  refine ⟨?_, h.never (.inl hq)⟩
  obtain ⟨o, d', b0, b, g1, -, -, -, g5⟩ := h.opens
  refine ⟨_, g1, ?_, fun s out d' e => (by cases e)⟩
  intro p hp
  have no : ∀ hs : (∀ r, asks S o tor d'.files = .ok r → S.silent r = false), False := fun hs => by
    have := hs raw g5
    rw [hq] at this
    cases this
  cases hp with
  | fatal _ _ _ _ _ hs _ => exact no hs
  | panic _ _ _ _ hs _ => exact no hs
  | printPanic _ _ _ _ _ hs _ _ => exact no hs
  | start _ _ _ _ _ _ hs _ _ => exact no hs

/-- **C101** is false: a tracker that cannot be reached, or answers with an error, ends the program: peers cannot get what is there from this client, however complete it is. -/
theorem C101_refuted_tracker (S : Setting) (args : List Bytes) (d : Disk) (w : Wanted) (tor : Torrent) (raw : Bytes) (h : Ready S args d w tor raw) (hq : S.silent raw = false) (e : Err)
    (he : Tracker.doRequest S.w.v6 S.w.parseIP (S.w.http raw) S.w.spareBody = .err e) :
    (∃ out d', Reach (Step S args) (.begin d) (.ended 1 out d')) ∧ ∀ st σ out d', ¬ Reach (Step S args) (.begin d) (.serving st σ out d') := by
  refine ⟨?_, h.never (.inr fun resp hr => by rw [he] at hr; cases hr)⟩
  obtain ⟨o, d', b0, b, g1, g2, g3, g4, g5⟩ := h.opens
  refine ⟨_, d', .tail _ _ g1 (.fatal o tor _ d' e (fun r hr => by rw [g5] at hr; cases hr; exact hq) ?_)⟩
  have hget : Tracker.Get S.w.v6 S.w.parseIP S.w.parseURL S.w.http S.w.spareBody tor (Tracker.NewStats 0 0 0) (options o).port S.id = .err e := by
    unfold Tracker.Get
    rw [port_shows g2, h.request, Res.ok_bind, he]
  unfold finish
  rw [g3, Res.ok_bind, g4, Res.ok_bind, hget]
  rfl

/-- **C101** is false: the program never rests.  Whatever state the client is in, as long as it lives the main goroutine goes around its empty loop: there is an execution in which nothing
happens at all and which takes steps for ever. -/
theorem C101_refuted_rest (S : Setting) (args : List Bytes) (d d' : Disk) (st : Started) (σ : Start.State) (out : Bytes)
    (h : Reach (Step S args) (.begin d) (.serving st σ out d')) (hc : σ.client.crashed = false) :
    ∃ run : Nat → Proc, Reach (Step S args) (.begin d) (run 0) ∧ ∀ n, Step S args (run n) (run (n + 1)) ∧ run n = .serving st σ out d' :=
  ⟨fun _ => .serving st σ out d', h, fun _ => ⟨.spin st σ out d' hc, rfl⟩⟩

/-! ### an example -/

/-- the arguments `-i /t -w /w -p 7000` -/
def exArgs : List Bytes := [ascii "-i", ascii "/t", ascii "-w", ascii "/w", ascii "-p", ascii "7000"]

/-- a disk with the torrent file `/t` in the root directory -/
def exTree : Disk := ⟨exDisk, fun q => q = []⟩

/-- the world of the examples of C99; `quiet` tells whether the tracker is silent, `answer` what it says -/
def exSetting (quiet : Bool) (answer : Option Bytes) : Setting :=
  ⟨{ Start.exWorld2 with http := fun _ => answer }, fun _ _ => ascii "?", [], fun _ => quiet, List.replicate 20 65, false⟩

theorem ex_ready (quiet : Bool) (answer : Option Bytes) : ∃ w tor raw, Ready (exSetting quiet answer) exArgs exTree w tor raw ∧ tor.info.numPieces = 1 := by
  obtain ⟨t0, h1, h2, h3, h4, h5, h6⟩ := ex_loads
  obtain ⟨t, e1, e2, e3⟩ : ∃ t, FromTorrentFile (exSetting quiet answer).w.H (some exTorrent) (exSetting quiet answer).w.spareFile (ascii "/w") = .ok t ∧
      t.announce = t0.announce ∧ t.info = t0.info := by
    obtain ⟨d, infod, g1, g2, g3, g4, -⟩ := fromTorrentFile_ok h1
    exact ⟨_, fromTorrentFile_eq g1 g2 g3 g4 (exSetting quiet answer).w.H, rfl, rfl⟩
  have hb : ∀ e ∈ t.info.flist, e.base = ⟨4, ascii "n", ascii "/w/n"⟩ := by
    intro e he
    rw [e3] at he
    have : e.base ∈ t0.info.flist.map Entry.base := List.mem_map_of_mem he
    rw [h5, List.mem_singleton] at this
    exact this
  have hs : Sensible t.info := by
    refine ⟨by rw [e3, h3]; decide, by rw [e3, h3]; decide, fun e he => by rw [hb e he]; decide, ?_⟩
    rw [e3, show (fun e : Entry => e.base.localPath) = EntryBase.localPath ∘ Entry.base from rfl, ← List.map_map, h5]
    decide +kernel
  have hc : Query.NoControl t.announce := by rw [e2, h2]; unfold Query.NoControl; decide +kernel
  have hp : (exSetting quiet answer).w.parseURL t.announce = some [] := rfl
  obtain ⟨raw, q, r1, -⟩ := Tracker.request_values (exSetting quiet answer).w.parseURL t (Tracker.NewStats 0 0 0) 7000 (List.replicate 20 65) [] hc hp
  have ho : main exArgs = .swarm { defaults with input := ascii "/t", wd := ascii "/w", port := 7000, uplim := -1, dnlim := -1 } := by decide +kernel
  obtain ⟨w, m1, m2, m3, m4⟩ := (C75_swarm_partial exArgs).2 _ ho
  have hport := port_shows m4
  have above_one : ∀ (q r : Place) (x : Bytes), r ≠ [] → [x] = q ++ r → q = [] := by
    intro q r x hr h
    have := congrArg List.length h
    have := List.length_pos_iff.mpr hr
    simp only [List.length_append, List.length_cons, List.length_nil] at *
    exact List.length_eq_zero_iff.mp (by omega)
  have onlyT : ∀ p c, exDisk p = some c → p = ascii "/t" := by
    intro p c h
    unfold exDisk at h
    split at h
    · assumption
    · cases h
  have rt : resolve [] (ascii "/t") = [ascii "t"] := by decide +kernel
  have rn : resolve [] (ascii "/w/n") = [ascii "w", ascii "n"] := by decide +kernel
  refine ⟨w, t, raw, ⟨⟨rfl, ?_, ?_, ?_⟩, m1, m2, m3, ⟨exTorrent, ?_, ?_⟩, ?_, ?_, hs, ?_⟩, by rw [e3, h6]⟩
  · rintro p c q hp ⟨r, hr, hq⟩
    rw [onlyT p c hp, show (exSetting quiet answer).cwd = [] from rfl, rt] at hq
    exact above_one q r _ hr hq
  · rintro p q rfl ⟨r, hr, h⟩
    exact absurd (List.append_eq_nil_iff.mp h.symm).2 hr
  · intro p c hp h
    rw [onlyT p c hp, show (exSetting quiet answer).cwd = [] from rfl, rt] at h
    cases h
  · rw [← m4.input]; rfl
  · rw [← m4.wd]; exact e1
  · intro e he
    rw [hb e he, show (exSetting quiet answer).cwd = [] from rfl, rn]
    refine ⟨fun h => (by cases h), ?_⟩
    rintro q ⟨r, hr, hq⟩
    constructor
    · intro p hp
      cases h : exTree.files p with
      | none => rfl
      | some c =>
        rw [onlyT p c h, rt] at hp
        rw [← hp] at hq
        simp only [List.cons_append, List.nil_append, List.cons.injEq] at hq
        exact absurd hq.1 (by decide)
    · intro f hf
      rw [hb f hf, rn]
      rintro rfl
      exact hr (by simpa using hq)
  · rw [← hport]; exact r1
  · refine ⟨by rw [e3, h3]; decide, ?_, fun e he => by rw [hb e he]; decide⟩
    obtain ⟨d, infod, -, -, -, g4, -⟩ := fromTorrentFile_ok h1
    obtain ⟨name, pl, pieces, fes, -, -, -, -, g5⟩ := fromDict_ok g4
    obtain ⟨-, -, -, -, f5, f6⟩ := newTorInfo_fields g5
    rw [e3, f5, ← f6, h5]
    decide

/-- an answer with one peer -/
def exAnswer : Bytes := ascii "d8:completei1e10:incompletei2e8:intervali9e5:peers6:\u0001\u0002\u0003\u0004\u0000\u0050e"

/-- the program serves, and the hypotheses of the theorems about a serving program are met -/
theorem ex_serves : ∃ st σ out d', Reach (Step (exSetting false (some exAnswer)) exArgs) (.begin exTree) (.serving st σ out d') ∧ Sensible st.tor.info ∧
    st.tor.info.numPieces = 1 ∧ σ.client.crashed = false := by
  obtain ⟨w, tor, raw, h, h1⟩ := ex_ready false (some exAnswer)
  obtain ⟨resp, hr⟩ := Res.isOk_iff (r := Tracker.doRequest (exSetting false (some exAnswer)).w.v6 (exSetting false (some exAnswer)).w.parseIP (some exAnswer) [])
    (by decide +kernel)
  obtain ⟨data, f1, f2⟩ := h.file
  obtain ⟨st, σ, out, d', g⟩ := (C101_serves_iff_partial _ exArgs exTree h.tree h.good).2
    ⟨w, data, tor, raw, resp, h.line, h.input, h.cmd, f1, f2, h.way, h.request, rfl, hr⟩
  obtain ⟨o, readOk, text, g1, g2, g3, g4, g5, g6, g7, g8⟩ := inv _ _ _ _ g
  obtain ⟨ht, -⟩ := h.only g1 g2
  have hb : Reach (Step (exSetting false (some exAnswer)) exArgs) (.begin exTree) (.serving st (Start.begin st) out d') := by
    rw [g7]
    exact .tail _ _ (.single (.open exTree d' o readOk st.tor g1 g2 g3)) (.start o st.tor _ d' st text g5 g4 g6)
  exact ⟨st, _, out, d', hb, by rw [ht]; exact h.sensible, by rw [ht]; exact h1, rfl⟩

/-- a silent tracker, and one that says no -/
example : (∃ w tor raw, Ready (exSetting true none) exArgs exTree w tor raw) ∧
    ∃ w tor raw e, Ready (exSetting false (some (ascii "d14:failure reason2:noe"))) exArgs exTree w tor raw ∧
      Tracker.doRequest (exSetting false (some (ascii "d14:failure reason2:noe"))).w.v6 (exSetting false (some (ascii "d14:failure reason2:noe"))).w.parseIP
        ((exSetting false (some (ascii "d14:failure reason2:noe"))).w.http raw) (exSetting false (some (ascii "d14:failure reason2:noe"))).w.spareBody = .err e := by
  obtain ⟨w, tor, raw, h, -⟩ := ex_ready true none
  obtain ⟨w', tor', raw', h', -⟩ := ex_ready false (some (ascii "d14:failure reason2:noe"))
  obtain ⟨e, he⟩ : ∃ e, Tracker.doRequest (exSetting false (some (ascii "d14:failure reason2:noe"))).w.v6
      (exSetting false (some (ascii "d14:failure reason2:noe"))).w.parseIP (some (ascii "d14:failure reason2:noe")) [] = .err e := by
    cases hr : Tracker.doRequest (exSetting false (some (ascii "d14:failure reason2:noe"))).w.v6
      (exSetting false (some (ascii "d14:failure reason2:noe"))).w.parseIP (some (ascii "d14:failure reason2:noe")) [] with
    | err e => exact ⟨e, rfl⟩
    | ok _ | panic | timeout =>
      have : (match Tracker.doRequest (exSetting false (some (ascii "d14:failure reason2:noe"))).w.v6
        (exSetting false (some (ascii "d14:failure reason2:noe"))).w.parseIP (some (ascii "d14:failure reason2:noe")) [] with
        | .err _ => true
        | _ => false) = true := by decide +kernel
      rw [hr] at this
      cases this
  exact ⟨⟨w, tor, raw, h⟩, w', tor', raw', e, h', he⟩

/-- the port is taken: the serving program ends -/
example : ∃ st σ out d' out' d'', Reach (Step (exSetting false (some exAnswer)) exArgs) (.serving st σ out d') (.ended 2 out' d'') := by
  obtain ⟨st, σ, out, d', -⟩ := ex_serves
  obtain ⟨σ', h1, h2, -⟩ := Start.C99_refuted_listen (exSetting false (some exAnswer)).w ⟨[], [], st.port⟩ st
  exact ⟨st, Start.begin st, out, d', out, d', .tail _ _ (.single (.work st _ σ' out d' h1)) (.died st σ' out d' h2)⟩

/-- the hypotheses of `C101_info` are met: `-i /t -w /w -cmd info` -/
example : ∃ w data tor text, Means [ascii "-i", ascii "/t", ascii "-w", ascii "/w", ascii "-cmd", ascii "info"] w ∧ w.input ≠ [] ∧ w.cmd = ascii "info" ∧
    exTree.files w.input = some data ∧ FromTorrentFile (exSetting false none).w.H (some data) (exSetting false none).w.spareFile w.wd = .ok tor ∧
    TorrentString (exSetting false none).fv tor = .ok text := by
  obtain ⟨w0, tor, raw, h, -⟩ := ex_ready false none
  obtain ⟨text, ht⟩ := torrentString_ok (exSetting false none).fv tor h.sizes
  have ho : main exArgs = .swarm { defaults with input := ascii "/t", wd := ascii "/w", port := 7000, uplim := -1, dnlim := -1 } := by decide +kernel
  have hi : main [ascii "-i", ascii "/t", ascii "-w", ascii "/w", ascii "-cmd", ascii "info"] =
      .info { defaults with input := ascii "/t", wd := ascii "/w", cmd := ascii "info", uplim := -1, dnlim := -1 } := by decide +kernel
  obtain ⟨o, o1, o2⟩ := (C75_swarm_partial exArgs).1 w0 ⟨h.line, h.input, h.cmd⟩
  rw [ho] at o1
  cases o1
  obtain ⟨w, m1, m2, m3, m4⟩ := (C75_info_partial _).2 _ hi
  obtain ⟨data, f1, f2⟩ := h.file
  rw [← o2.input] at f1
  rw [← o2.wd] at f2
  exact ⟨w, data, tor, text, m1, m2, m3, by rw [← m4.input]; exact f1, by rw [← m4.wd]; exact f2, ht⟩

end Verif.Program
