import Verif.Model.Startup
import Verif.Props.Saved
import Verif.Props.Session
import Verif.Props.Tracker
/-
Properties C71 and C72: starting up, and the whole way from files to answered requests.
-/
set_option autoImplicit false

namespace Verif.Startup
open Verif.Files Verif.FS Verif.FileIO Verif.Bf Verif.Torrent Verif.Layout Verif.Bits Verif.Query Verif.MsgHandler Verif.PieceTracker Verif.Bencode
  Verif.Bencode.Spec Verif.Create

/-! ### C71 -/

/-- metadata that makes sense: positive piece length (with room for a piece message in 32 bits), no negative file lengths, the
files at different places -/
structure Sensible (ti : TorInfo) : Prop where
  pos : 0 < ti.pieceLen
  small : ti.pieceLen + 9 < 2 ^ 32
  nonneg : ∀ e ∈ ti.flist, 0 ≤ e.base.length
  distinct : (ti.flist.map fun e => e.base.localPath).Nodup

/-- what the files of the torrent look like after preparation: cut or filled with zeros to their lengths -/
def prepAll (ti : TorInfo) (fs : State) : List Bytes := ti.flist.map fun e => prepared (old fs e.base.localPath) e.base.length.toNat

theorem loaded_accepted {H : Bytes → Bytes} {data : Option Bytes} {sp wd : Bytes} {t : Torrent} (h : FromTorrentFile H data sp wd = .ok t)
    (hs : Sensible t.info) : Accepted t.info.pieceLen.toNat t.info.hashes (t.info.flist.map Entry.base) t.info := by
  cases data with
  | none => cases h
  | some data =>
    obtain ⟨d, infod, -, -, -, h4, -⟩ := fromTorrentFile_ok h
    obtain ⟨name, pl, pieces, fes, -, -, -, -, h5⟩ := fromDict_ok h4
    obtain ⟨g1, g2, g3, g4, g5, g6⟩ := newTorInfo_fields h5
    have := hs.pos
    refine ⟨by omega, ?_, name, ?_⟩
    · intro f hf
      obtain ⟨e, he, rfl⟩ := List.mem_map.mp hf
      exact hs.nonneg e he
    · rw [g6, g3, Int.toNat_of_nonneg (by omega), g2]
      exact h5

theorem set_nbits {b b' : Bitfield} {i : Int} {v : Bool} (hr : Reachable b) (hi : i < b.nbits) (h : b.Set i v = .ok b') : b'.nbits = b.nbits := by
  obtain ⟨hw, -⟩ := reachable_exact hr
  by_cases h0 : i < 0
  · rw [set_neg b i v h0] at h; cases h
  · have hl := hw.data_len
    have hhi := hw.hi
    obtain ⟨b1, h1, hs⟩ := set_nat b i.toNat v (by omega)
    rw [show i = (i.toNat : Int) by omega, h1] at h
    cases h
    exact hs.nbits

theorem validateLoop_reachable (H : Bytes → Bytes) (fs : State) (fio : FileIO) (left : Nat) :
    ∀ (i : Nat) (buf : Bytes) (b b' : Bitfield), Reachable b → (i : Int) + left ≤ b.nbits → Swarm.validateLoop H fs fio left i buf b = .ok b' →
      Reachable b' ∧ b'.nbits = b.nbits := by
  induction left with
  | zero =>
    intro i buf b b' hr _ h
    cases h
    exact ⟨hr, rfl⟩
  | succ left ih =>
    intro i buf b b' hr hi h
    rw [Swarm.validateLoop] at h
    obtain ⟨⟨n, buf'⟩, -, h⟩ := Res.bind_eq_ok.mp h
    obtain ⟨kh, -, h⟩ := Res.bind_eq_ok.mp h
    obtain ⟨b1, h1, h⟩ := Res.bind_eq_ok.mp h
    have hn := set_nbits hr (by omega) h1
    obtain ⟨r1, r2⟩ := ih (i + 1) buf' b1 b' (.set b b1 i _ hr (by omega) h1) (by rw [hn]; omega) h
    exact ⟨r1, by rw [r2, hn]⟩

theorem finish_ok {w : World} {o : Options} {id : Bytes} {tor : Torrent} {fs : State} {st : Started} (h : finish w o id tor fs = .ok st) :
    ∃ b0 b resp ppt, NewBitfield tor.info.numPieces = .ok b0 ∧ Swarm.Validate w.H fs (openedAll tor.info) b0 = .ok b ∧
      Tracker.Get w.v6 w.parseIP w.parseURL w.http w.spareBody tor (Tracker.NewStats 0 0 0) o.port id = .ok resp ∧
      NewPeerPieceTracker (UInt32.ofNat tor.info.numPieces).toNat = .ok ppt ∧
      st = ⟨tor, ⟨tor.info, b, openedAll tor.info, fs⟩, resp.state, resp.peers, ppt, Tracker.NewStats 0 0 0, id, o.port⟩ := by
  unfold finish at h
  obtain ⟨b0, h1, h⟩ := Res.bind_eq_ok.mp h
  obtain ⟨b, h2, h⟩ := Res.bind_eq_ok.mp h
  obtain ⟨resp, h3, h⟩ := Res.bind_eq_ok.mp h
  obtain ⟨ppt, h4, h⟩ := Res.bind_eq_ok.mp h
  cases h
  exact ⟨b0, b, resp, ppt, h1, h2, h3, h4, rfl⟩

theorem validated {H : Bytes → Bytes} {pl : Nat} {hashes : Bytes} {files : List EntryBase} {ti : TorInfo} (h : Accepted pl hashes files ti) {fs : State}
    {cs : List Bytes} (hs : Stored fs files cs) : ∃ b0 b, NewBitfield ti.numPieces = .ok b0 ∧ Swarm.Validate H fs (openedAll ti) b0 = .ok b ∧
      Reachable b ∧ b.nbits = ti.numPieces ∧
      (∀ i : Nat, i < ti.numPieces → b.Get i = .ok (decide (H (pieceOf cs.flatten pl i) = range hashes (20 * i) 20))) := by
  obtain ⟨b0, b, h1, h2, h3, h4, -⟩ := C31_validate H pl hashes files ti h fs cs hs
  refine ⟨b0, b, h1, h2, ?_, h4, h3⟩
  unfold Swarm.Validate at h2
  split at h2
  · cases h2
  · refine (validateLoop_reachable H fs (openedAll ti) _ 0 _ b0 b (.new _ _ h1) ?_ h2).1
    obtain ⟨b1, e1, -, e2, -⟩ := new_wf ti.numPieces
    rw [h1] at e1
    cases e1
    rw [e2]
    show (0 : Int) + (ti.numPieces : Int) ≤ _
    omega

/-- what a successful start-up consists of -/
theorem started_parts {sp : Bool} {w : World} {o : Options} {id : Bytes} {readOk : Bool} {fs fs' : State} {st : Started}
    (h : NewSwarm sp w o id readOk fs (.ok st) fs') :
    ∃ data, readOk = true ∧ fs o.input = some data ∧ FromTorrentFile w.H (some data) w.spareFile o.workingDir = .ok st.tor ∧
      Exec sp (OCATAll st.tor.info.flist) fs (.done (.ok ())) fs' ∧ finish w o id st.tor fs' = .ok st := by
  generalize hr : Res.ok st = r at h
  cases h with
  | rejected | crashed | noFiles | filesCrashed => cases hr
  | ready _ tor h1 h2 =>
    have hst : st.tor = tor := by
      obtain ⟨-, -, -, -, -, -, -, -, rfl⟩ := finish_ok hr.symm
      rfl
    subst hst
    cases readOk with
    | false => cases h1
    | true =>
      simp only [if_true] at h1
      cases hd : fs o.input with
      | none => rw [hd] at h1; cases h1
      | some data => rw [hd] at h1; exact ⟨data, rfl, rfl, h1, h2, rfl⟩

theorem started_stats {sp : Bool} {w : World} {o : Options} {id : Bytes} {readOk : Bool} {fs fs' : State} {st : Started}
    (h : NewSwarm sp w o id readOk fs (.ok st) fs') : st.stats = Tracker.NewStats 0 0 0 := by
  obtain ⟨_, -, -, -, -, hfin⟩ := started_parts h
  obtain ⟨_, _, _, _, -, -, -, -, f5⟩ := finish_ok hfin
  rw [f5]

/-- **C71**: after a successful start-up, whatever calls failed before on the way: the torrent is that of the input file; its files
are on disk with their old contents, cut or filled up to the recorded lengths, and no other file has changed; the bitfield says for each piece
whether the contents have the recorded hash; no peer is registered for any piece; the peers are those of the tracker's answer to the request with
this torrent's data. -/
theorem C71_started (w : World) (o : Options) (id : Bytes) (readOk : Bool) (fs fs' : State) (st : Started)
    (h : NewSwarm false w o id readOk fs (.ok st) fs') (hs : Sensible st.tor.info) (hn : st.tor.info.numPieces < 2 ^ 32) :
    (∃ data, fs o.input = some data ∧ FromTorrentFile w.H (some data) w.spareFile o.workingDir = .ok st.tor) ∧
    (∀ (k : Nat) (e : Entry), st.tor.info.flist[k]? = some e → fs' e.base.localPath = some (prepared (old fs e.base.localPath) e.base.length.toNat)) ∧
    (∀ p, (∀ e ∈ st.tor.info.flist, p ≠ e.base.localPath) → fs' p = fs p) ∧
    (∀ i : Nat, i < st.tor.info.numPieces → st.core.bf.Get i =
      .ok (decide (w.H (pieceOf (prepAll st.tor.info fs).flatten st.tor.info.pieceLen.toNat i) = range st.tor.info.hashes (20 * i) 20))) ∧
    Reached st.tor.info.numPieces [] st.ppt ∧
    Running st.tor.info.pieceLen.toNat st.tor.info.hashes (st.tor.info.flist.map Entry.base) (prepAll st.tor.info fs) st.core
      (List.replicate st.tor.info.pieceLen.toNat 0) ∧
    st.core.tor = st.tor.info ∧ st.core.fs = fs' ∧ st.id = id ∧ st.port = o.port ∧
    ∃ raw body, Tracker.newRequest w.parseURL st.tor st.stats st.port st.id = .ok raw ∧ w.http raw = some body ∧
      Tracker.doRequest w.v6 w.parseIP (some body) w.spareBody = .ok ⟨st.state, st.peers⟩ := by
  obtain ⟨data, -, hd, hf, hx, hfin⟩ := started_parts h
  obtain ⟨b0, b, resp, ppt, f1, f2, f3, f4, f5⟩ := finish_ok hfin
  have hacc := loaded_accepted hf hs
  have hprep := C26_prepared _ _ _ _ hacc (by rw [List.map_map]; exact hs.distinct) fs fs' hx
  have hcs : (st.tor.info.flist.map Entry.base).map (fun f => prepared (old fs f.localPath) f.length.toNat) = prepAll st.tor.info fs := by
    rw [List.map_map]; rfl
  rw [hcs] at hprep
  obtain ⟨b0', b', v1, v2, v3, v4, v5⟩ := validated (H := w.H) hacc hprep
  rw [f1] at v1
  cases v1
  rw [f2] at v2
  cases v2
  obtain ⟨-, e2, e3, -⟩ := ocatAll_end _ hs.nonneg hs.distinct fs fs' _ hx
  have hcore : st.core = ⟨st.tor.info, b, openedAll st.tor.info, fs'⟩ := by rw [f5]
  have hppt : st.ppt = ppt := by rw [f5]
  have hstats : st.stats = Tracker.NewStats 0 0 0 := by rw [f5]
  have hid : st.id = id := by rw [f5]
  have hport : st.port = o.port := by rw [f5]
  have hresp : (⟨st.state, st.peers⟩ : Tracker.Response) = resp := by rw [f5]
  have hpos := hs.pos
  have hsm := hs.small
  refine ⟨⟨data, hd, hf⟩, ?_, e2, ?_, ?_, ?_, by rw [hcore], by rw [hcore], hid, hport, ?_⟩
  · intro k e he
    exact e3 rfl e (List.mem_of_getElem? he)
  · rw [hcore]; exact v5
  · have hnat : (UInt32.ofNat st.tor.info.numPieces).toNat = st.tor.info.numPieces := by
      rw [UInt32.toNat_ofNat']; exact Nat.mod_eq_of_lt hn
    rw [hnat] at f4
    exact ⟨by omega, (fun c hc => by cases hc), ppt, f4, by rw [hppt]; rfl⟩
  · rw [hcore]
    exact ⟨hacc, by omega, rfl, hprep, v3, v4, by rw [List.length_replicate]⟩
  · unfold Tracker.Get at f3
    obtain ⟨raw, r1, r2⟩ := Res.bind_eq_ok.mp f3
    rw [hstats, hid, hport, hresp]
    cases hb : w.http raw with
    | none => rw [hb] at r2; cases r2
    | some body => exact ⟨raw, body, r1, hb, by rw [hb] at r2; exact r2⟩

/-- **C71**: it does start if it can: with a good torrent file, a parsable announce URL and a tracker that gives a proper answer there is a
successful run; and no run panics. -/
theorem C71_starts (w : World) (o : Options) (id : Bytes) (fs : State) (data : Bytes) (tor : Torrent) (hd : fs o.input = some data)
    (hf : FromTorrentFile w.H (some data) w.spareFile o.workingDir = .ok tor) (hs : Sensible tor.info) (raw : Bytes)
    (hraw : Tracker.newRequest w.parseURL tor (Tracker.NewStats 0 0 0) o.port id = .ok raw) (resp : Tracker.Response)
    (hresp : Tracker.doRequest w.v6 w.parseIP (w.http raw) w.spareBody = .ok resp) :
    (∃ st fs', NewSwarm false w o id true fs (.ok st) fs' ∧ st.tor = tor) ∧
    ∀ r fs', NewSwarm false w o id true fs r fs' → (∃ st, r = .ok st ∧ st.tor = tor ∧ st.peers = resp.peers) ∨ ∃ e, r = .err e := by
  have hacc := loaded_accepted hf hs
  have hin : (if true = true then fs o.input else none) = some data := by rw [if_pos rfl, hd]
  have hget : Tracker.Get w.v6 w.parseIP w.parseURL w.http w.spareBody tor (Tracker.NewStats 0 0 0) o.port id = .ok resp := by
    unfold Tracker.Get
    rw [hraw, Res.ok_bind, hresp]
  have hfin : ∀ fs', Exec false (OCATAll tor.info.flist) fs (.done (.ok ())) fs' → ∃ st, finish w o id tor fs' = .ok st ∧ st.tor = tor ∧
      st.peers = resp.peers := by
    intro fs' hx
    have hprep := C26_prepared _ _ _ _ hacc (by rw [List.map_map]; exact hs.distinct) fs fs' hx
    obtain ⟨b0, b, v1, v2, -⟩ := validated (H := w.H) hacc hprep
    obtain ⟨ppt, p1, -⟩ := new_spec (UInt32.ofNat tor.info.numPieces).toNat
    refine ⟨⟨tor, ⟨tor.info, b, openedAll tor.info, fs'⟩, resp.state, resp.peers, ppt, Tracker.NewStats 0 0 0, id, o.port⟩, ?_, rfl, rfl⟩
    unfold finish
    rw [v1, Res.ok_bind, v2, Res.ok_bind, hget, Res.ok_bind, p1, Res.ok_bind]
  constructor
  · obtain ⟨fs', hx⟩ := ocatAll_run tor.info.flist hs.nonneg fs
    obtain ⟨st, h1, h2, -⟩ := hfin fs' hx
    refine ⟨st, fs', ?_, h2⟩
    have := NewSwarm.ready (sp := false) (w := w) (o := o) (id := id) (readOk := true) fs fs' tor (by rw [hin]; exact hf) hx
    rwa [h1] at this
  · intro r fs' h
    cases h with
    | rejected e => exact .inr ⟨e, rfl⟩
    | crashed h1 => rw [hin, hf] at h1; cases h1
    | noFiles _ t e => exact .inr ⟨e, rfl⟩
    | filesCrashed _ t h1 h2 =>
      rw [hin, hf] at h1
      cases h1
      exact absurd rfl (ocatAll_end _ hs.nonneg hs.distinct fs fs' _ h2).2.2.2.1
    | ready _ t h1 h2 =>
      rw [hin, hf] at h1
      cases h1
      obtain ⟨st, e1, e2, e3⟩ := hfin fs' h2
      exact .inl ⟨st, e1, e2, e3⟩

/-- **C71**: a torrent file that cannot be read or is rejected ends start-up without touching any file. -/
theorem C71_rejected (sp : Bool) (w : World) (o : Options) (id : Bytes) (readOk : Bool) (fs : State) (r : Res Started) (fs' : State)
    (hbad : ∀ t, FromTorrentFile w.H (if readOk then fs o.input else none) w.spareFile o.workingDir ≠ .ok t)
    (h : NewSwarm sp w o id readOk fs r fs') : fs' = fs ∧ ∀ st, r ≠ .ok st := by
  cases h with
  | rejected e h1 => exact ⟨rfl, fun st h => by cases h⟩
  | crashed h1 => exact ⟨rfl, fun st h => by cases h⟩
  | noFiles _ t e h1 => exact absurd h1 (hbad t)
  | filesCrashed _ t h1 => exact absurd h1 (hbad t)
  | ready _ t h1 => exact absurd h1 (hbad t)

/-- preparation goes through the files in order and stops at the first failure -/
theorem ocatAll_order (es : List Entry) (hn : ∀ e ∈ es, 0 ≤ e.base.length) (hd : (es.map fun e => e.base.localPath).Nodup) (fs fs' : State)
    (o : Outcome) (h : Exec false (OCATAll es) fs o fs') :
    ∃ k : Nat, k ≤ es.length ∧ (o = .done (.ok ()) → k = es.length) ∧ ∀ (j : Nat) (e : Entry), es[j]? = some e →
      (j < k → fs' e.base.localPath = some (prepared (old fs e.base.localPath) e.base.length.toNat)) ∧
      (k < j → fs' e.base.localPath = fs e.base.localPath) := by
  induction es generalizing fs with
  | nil => exact ⟨0, Nat.le_refl _, fun _ => rfl, fun j e he => by simp at he⟩
  | cons e es ih =>
    have hn' : ∀ x ∈ es, 0 ≤ x.base.length := fun x hx => hn x (by simp [hx])
    rw [List.map_cons, List.nodup_cons] at hd
    have hne : ∀ x ∈ es, x.base.localPath ≠ e.base.localPath := by
      intro x hx heq
      exact hd.1 (List.mem_map.mpr ⟨x, hx, heq⟩)
    have one : ∀ (o : Outcome) (mid : State), Exec false (OCAT e.base.localPath e.base.length) fs o mid →
        (∀ x ∈ es, mid x.base.localPath = fs x.base.localPath) ∧
        (o = .done (.ok ()) → mid e.base.localPath = some (prepared (old fs e.base.localPath) e.base.length.toNat)) := by
      intro o mid hx
      rw [show e.base.length = ((e.base.length.toNat : Nat) : Int) by have := hn e (by simp); omega] at hx
      refine ⟨fun x hxm => (attempt_inv _ _ _ _ _ hx).2 _ (hne x hxm), ?_⟩
      rintro rfl
      rcases ocat_end _ _ _ _ _ hx with ⟨-, hne, -⟩ | ⟨c, rfl, -, hok, -⟩
      · exact absurd rfl hne
      · rw [hok rfl, set_get]
    have stopped : (∀ x ∈ es, fs' x.base.localPath = fs x.base.localPath) → o ≠ .done (.ok ()) →
        ∃ k : Nat, k ≤ (e :: es).length ∧ (o = .done (.ok ()) → k = (e :: es).length) ∧ ∀ (j : Nat) (x : Entry), (e :: es)[j]? = some x →
          (j < k → fs' x.base.localPath = some (prepared (old fs x.base.localPath) x.base.length.toNat)) ∧
          (k < j → fs' x.base.localPath = fs x.base.localPath) := by
      intro hx ho
      refine ⟨0, Nat.zero_le _, fun h => absurd h ho, ?_⟩
      intro j x hj
      refine ⟨fun h => by omega, fun h => ?_⟩
      cases j with
      | zero => omega
      | succ j => exact hx x (List.mem_of_getElem? hj)
    rw [OCATAll] at h
    rcases h.bind_inv with ⟨rfl, hc⟩ | ⟨r, mid, h1, h2⟩
    · exact stopped (one _ _ hc).1 (by simp)
    · obtain ⟨f1, f2⟩ := one _ _ h1
      cases r with
      | ok u =>
        simp only at h2
        obtain ⟨k, k1, k2, k3⟩ := ih hn' hd.2 mid h2
        refine ⟨k + 1, by simpa using k1, fun h => by rw [k2 h, List.length_cons], ?_⟩
        intro j x hj
        cases j with
        | zero =>
          obtain rfl : e = x := by simpa using hj
          have := (ocatAll_end es hn' hd.2 mid fs' o h2).2.1 _ (fun x hx heq => hne x hx heq.symm)
          exact ⟨fun _ => by rw [this, f2 rfl], fun h => by omega⟩
        | succ j =>
          have hx : es[j]? = some x := hj
          obtain ⟨g1, g2⟩ := k3 j x hx
          have hm := f1 x (List.mem_of_getElem? hx)
          have ho : old mid x.base.localPath = old fs x.base.localPath := by unfold old; rw [hm]
          exact ⟨fun h => by rw [g1 (by omega), ho], fun h => by rw [g2 (by omega), hm]⟩
      | err er =>
        cases h2 with
        | ret => exact stopped f1 (by simp)
        | crash => exact stopped f1 (by simp)
      | panic =>
        cases h2 with
        | ret => exact stopped f1 (by simp)
        | crash => exact stopped f1 (by simp)
      | timeout =>
        cases h2 with
        | ret => exact stopped f1 (by simp)
        | crash => exact stopped f1 (by simp)

/-- **C71**, however start-up ends: the files of the torrent are prepared in order up to one of them, those behind it and all other files
are untouched, and no data that belongs to the torrent is lost. -/
theorem C71_in_order (w : World) (o : Options) (id : Bytes) (readOk : Bool) (fs fs' : State) (t : Torrent) (r : Res Started)
    (hload : FromTorrentFile w.H (if readOk then fs o.input else none) w.spareFile o.workingDir = .ok t) (hs : Sensible t.info)
    (h : NewSwarm false w o id readOk fs r fs') :
    (∃ k : Nat, k ≤ t.info.flist.length ∧ (∀ st, r = .ok st → k = t.info.flist.length) ∧
      ∀ (j : Nat) (e : Entry), t.info.flist[j]? = some e →
        (j < k → fs' e.base.localPath = some (prepared (old fs e.base.localPath) e.base.length.toNat)) ∧
        (k < j → fs' e.base.localPath = fs e.base.localPath)) ∧
    (∀ e ∈ t.info.flist, prepared (old fs' e.base.localPath) e.base.length.toNat = prepared (old fs e.base.localPath) e.base.length.toNat) ∧
    (∀ p, (∀ e ∈ t.info.flist, p ≠ e.base.localPath) → fs' p = fs p) := by
  obtain ⟨oc, hx, hok⟩ : ∃ oc, Exec false (OCATAll t.info.flist) fs oc fs' ∧ ((∃ st, r = .ok st) → oc = .done (.ok ())) := by
    cases h with
    | rejected e h1 => rw [hload] at h1; cases h1
    | crashed h1 => rw [hload] at h1; cases h1
    | noFiles _ t' e h1 h2 =>
      rw [hload] at h1; cases h1
      exact ⟨_, h2, by rintro ⟨st, h⟩; cases h⟩
    | filesCrashed _ t' h1 h2 =>
      rw [hload] at h1; cases h1
      exact ⟨_, h2, by rintro ⟨st, h⟩; cases h⟩
    | ready _ t' h1 h2 =>
      rw [hload] at h1; cases h1
      exact ⟨_, h2, fun _ => rfl⟩
  obtain ⟨k, k1, k2, k3⟩ := ocatAll_order _ hs.nonneg hs.distinct fs fs' oc hx
  obtain ⟨e1, e2, -⟩ := ocatAll_end _ hs.nonneg hs.distinct fs fs' oc hx
  exact ⟨⟨k, k1, fun st hst => k2 (hok ⟨st, hst⟩), k3⟩, e1, e2⟩

/-- **C71**, what the tracker is told: this torrent, this client's port, its id (if that needs no escaping), and that nothing is missing. -/
theorem C71_announced (w : World) (o : Options) (id : Bytes) (readOk : Bool) (fs fs' : State) (st : Started)
    (h : NewSwarm false w o id readOk fs (.ok st) fs') (hs : Sensible st.tor.info) (hn : st.tor.info.numPieces < 2 ^ 32)
    (extra : List (Bytes × Bytes)) (hc : NoControl st.tor.announce) (hp : w.parseURL st.tor.announce = some extra)
    (hid : ∀ c ∈ id, Unreserved c)
    (hex : ∀ p ∈ extra, p.1 ∉ (Tracker.announced [] [] 0 0 0 0).map Prod.fst) :
    ∃ raw q body, parseQuery raw = some q ∧ w.http raw = some body ∧
      Tracker.doRequest w.v6 w.parseIP (some body) w.spareBody = .ok ⟨st.state, st.peers⟩ ∧
      values q (ascii "info_hash") = [st.tor.infohash] ∧ values q (ascii "peer_id") = [id] ∧ values q (ascii "port") = [decNat o.port.toNat] ∧
      values q (ascii "uploaded") = [ascii "0"] ∧ values q (ascii "downloaded") = [ascii "0"] ∧ values q (ascii "left") = [ascii "0"] := by
  obtain ⟨-, -, -, -, -, -, -, -, h1, h2, raw, body, h3, h4, h5⟩ := C71_started w o id readOk fs fs' st h hs hn
  have hst : st.stats = Tracker.NewStats 0 0 0 := started_stats h
  obtain ⟨raw', q, r1, r2, r3, r4, r5, r6, r7, r8, -⟩ := Tracker.C38_recovered_partial w.parseURL st.tor st.stats st.port id extra hc hp hid hex
  rw [h1, r1] at h3
  cases h3
  have hz : decNat (0 : UInt64).toNat = ascii "0" := by decide
  refine ⟨raw, q, body, r2, h4, h5, r3, r4, by rw [r5, h2], ?_, ?_, ?_⟩
  · rw [r6, hst]; exact congrArg (fun x => [x]) hz
  · rw [r7, hst]; exact congrArg (fun x => [x]) hz
  · rw [r8, hst]; exact congrArg (fun x => [x]) hz

/-! a start-up without any data on disk -/

/-- torrent file of one piece of four bytes -/
def exTorrent : Bytes := ascii "d8:announce3:a/b4:infod6:lengthi4e4:name1:n12:piece lengthi4e6:pieces20:aaaaaaaaaaaaaaaaaaaaee"

def exWorld : World where
  H := fun _ => []
  v6 := fun _ => []
  parseIP := fun b => b
  parseURL := fun _ => some []
  http := fun _ => some (ascii "d8:completei1e10:incompletei2e8:intervali9e5:peers6:\u0001\u0002\u0003\u0004\u0000\u0050e")
  spareFile := []
  spareBody := []

def exDisk : State := fun p => if p = ascii "/t" then some exTorrent else none

def exOptions : Options := ⟨ascii "/t", ascii "/w", 7000⟩

theorem ex_loads : ∃ t, FromTorrentFile exWorld.H (some exTorrent) exWorld.spareFile (ascii "/w") = .ok t ∧ t.announce = ascii "a/b" ∧
    t.info.pieceLen = 4 ∧ t.info.hashes = ascii "aaaaaaaaaaaaaaaaaaaa" ∧ t.info.flist.map Entry.base = [⟨4, ascii "n", ascii "/w/n"⟩] ∧
    t.info.numPieces = 1 := by
  have hd : Decode exTorrent [] = .ok (.dict [(ascii "announce", .str (ascii "a/b")), (ascii "info", .dict Tracker.exInfo4)]) := by decide +kernel
  obtain ⟨ti, h4⟩ := Res.isOk_iff (r := FromDict Tracker.exInfo4 (ascii "/w")) (by decide +kernel)
  have h : (match FromDict Tracker.exInfo4 (ascii "/w") with
    | .ok ti => decide (ti.pieceLen = 4 ∧ ti.hashes = ascii "aaaaaaaaaaaaaaaaaaaa" ∧ ti.flist.map Entry.base = [⟨4, ascii "n", ascii "/w/n"⟩] ∧
        ti.numPieces = 1)
    | _ => false) = true := by decide +kernel
  rw [h4] at h
  simp only [decide_eq_true_eq] at h
  exact ⟨_, fromTorrentFile_eq (an := ascii "a/b") (infod := Tracker.exInfo4) hd (by decide +kernel) (by decide +kernel) h4 exWorld.H, rfl, h⟩

theorem ex_starts : ∃ st fs', NewSwarm false exWorld exOptions (List.replicate 20 65) true exDisk (.ok st) fs' ∧ Sensible st.tor.info ∧
    st.tor.info.numPieces = 1 ∧ NoControl st.tor.announce ∧ exWorld.parseURL st.tor.announce = some [] ∧ st.tor.info.pieceLen = 4 ∧
    st.tor.info.hashes = ascii "aaaaaaaaaaaaaaaaaaaa" ∧ st.tor.announce = ascii "a/b" := by
  obtain ⟨t, h1, h2, h3, h4, h5, h6⟩ := ex_loads
  have hs : Sensible t.info := by
    refine ⟨by rw [h3]; decide, by rw [h3]; decide, ?_, ?_⟩
    · intro e he
      have : e.base ∈ t.info.flist.map Entry.base := List.mem_map_of_mem he
      rw [h5, List.mem_singleton] at this
      rw [this]
      decide
    · rw [show (fun e : Entry => e.base.localPath) = EntryBase.localPath ∘ Entry.base from rfl, ← List.map_map, h5]
      decide +kernel
  have hc : NoControl t.announce := by rw [h2]; unfold NoControl; decide +kernel
  have hp : exWorld.parseURL t.announce = some [] := by rw [h2]; decide +kernel
  obtain ⟨raw, q, r1, -⟩ := Tracker.request_values exWorld.parseURL t (Tracker.NewStats 0 0 0) 7000 (List.replicate 20 65) [] hc hp
  obtain ⟨resp, hr⟩ := Res.isOk_iff (r := Tracker.doRequest exWorld.v6 exWorld.parseIP
    (some (ascii "d8:completei1e10:incompletei2e8:intervali9e5:peers6:\u0001\u0002\u0003\u0004\u0000\u0050e")) []) (by decide +kernel)
  obtain ⟨⟨st, fs', e1, e2⟩, -⟩ := C71_starts exWorld exOptions (List.replicate 20 65) exDisk exTorrent t rfl h1 hs raw r1 resp hr
  exact ⟨st, fs', e1, by rw [e2]; exact hs, by rw [e2]; exact h6, by rw [e2]; exact hc, by rw [e2]; exact hp, by rw [e2]; exact h3, by rw [e2]; exact h4, by rw [e2]; exact h2⟩

/-- start-up that ends because the directory of the file cannot be made -/
example : ∃ t, FromTorrentFile exWorld.H (exDisk exOptions.input) exWorld.spareFile exOptions.workingDir = .ok t ∧
    NewSwarm false exWorld exOptions (List.replicate 20 65) true exDisk (.err .os) exDisk := by
  obtain ⟨t, h1, -, -, -, h5, -⟩ := ex_loads
  refine ⟨t, h1, .noFiles _ _ t _ h1 ?_⟩
  cases hf : t.info.flist with
  | nil => rw [hf] at h5; cases h5
  | cons e es =>
    have he : e.base = ⟨4, ascii "n", ascii "/w/n"⟩ := by
      rw [hf, List.map_cons, List.cons.injEq] at h5
      exact h5.1
    rw [OCATAll, he]
    exact .open_fail _ _ _ _ _ (.inl (by decide +kernel)) (.mkdir _ _ _ _ _ false (.ret _ _))

/-- **C71** refuted (tracker statistics): a client that has none of the four bytes of the torrent tells the tracker that nothing is left to
download. -/
theorem C71_refuted_left : ∃ (w : World) (o : Options) (id : Bytes) (fs fs' : State) (st : Started) (raw body : Bytes) (q : List (Bytes × Bytes)),
    NewSwarm false w o id true fs (.ok st) fs' ∧ Sensible st.tor.info ∧ st.tor.info.numPieces = 1 ∧ st.core.bf.Get 0 = .ok false ∧
      w.http raw = some body ∧ Tracker.newRequest w.parseURL st.tor st.stats st.port st.id = .ok raw ∧ parseQuery raw = some q ∧
      values q (ascii "left") = [ascii "0"] := by
  obtain ⟨st, fs', h1, h2, h3, hc, h4, h5, h6, -⟩ := ex_starts
  obtain ⟨-, -, -, c4, -, -, -, -, c9, c10, raw, body, c11, c12, -⟩ := C71_started exWorld exOptions (List.replicate 20 65) true exDisk fs' st h1 h2 (by rw [h3]; decide)
  obtain ⟨raw', q, r1, r2, r3⟩ := Tracker.request_values exWorld.parseURL st.tor st.stats st.port st.id [] hc h4
  rw [c11] at r1
  cases r1
  refine ⟨exWorld, exOptions, List.replicate 20 65, exDisk, fs', st, raw, body, q, h1, h2, h3, ?_, c12, c11, r2, ?_⟩
  · have := c4 0 (by rw [h3]; decide)
    rw [h6] at this
    exact this
  · have hst : st.stats = Tracker.NewStats 0 0 0 := started_stats h1
    rw [r3, hst]
    rfl

/-! ### C72 -/

open Verif.Session Verif.SessionSpec Verif.Handshake Verif.HandshakeSpec Verif.Wire Verif.Peer Verif.Path

theorem replies_all {content : Bytes} {pl n : Nat} {f : Nat → Bool} (hf : ∀ i, i < n → f i = true) (ws : List Wire.Msg)
    (hw : ∀ w ∈ ws, Polite content pl n w) : replies content pl f ws = replies content pl (fun _ => true) ws := by
  unfold replies
  induction ws with
  | nil => rfl
  | cons w ws ih =>
    have h1 : reply content pl f w = reply content pl (fun _ => true) w := by
      cases w with
      | request i b l =>
        have := hw (.request i b l) (by simp)
        simp only [reply]
        rw [hf _ this.1, if_pos rfl, if_pos trivial]
      | _ => rfl
    rw [List.filterMap_cons, List.filterMap_cons, h1, ih fun w hm => hw w (by simp [hm])]

theorem created_entry {dir : Bytes} {paths cs : List Bytes} {fs : FS.State} (hc : Contents fs dir paths cs) :
    (List.zipWith (entryFor dir) paths cs).map (fun f => prepared (old fs f.localPath) f.length.toNat) = cs := by
  have hlen : paths.length = cs.length := by have := congrArg List.length hc; simpa using this
  have hst := contents_stored hc
  apply List.ext_getElem?
  intro k
  rw [List.getElem?_map]
  cases hk : cs[k]? with
  | none =>
    rw [List.getElem?_eq_none (by
      rw [List.length_zipWith, ← hlen, Nat.min_self, hlen]; exact List.getElem?_eq_none_iff.mp hk)]
    rfl
  | some c =>
    have hkl : k < cs.length := (List.getElem?_eq_some_iff.mp hk).1
    have hpk : paths[k]? = some (paths[k]'(by omega)) := List.getElem?_eq_getElem (by omega)
    have hz : (List.zipWith (entryFor dir) paths cs)[k]? = some (entryFor dir (paths[k]'(by omega)) c) := by
      rw [List.getElem?_zipWith, hpk, hk]
    rw [hz]
    have := hst.2 k _ c hz hk
    simp only [Option.map_some, Option.some.injEq]
    unfold old
    rw [this]
    simp [prepared, entryFor, MakeFileEntry, EntryBase.SetLocalPath]

/-- **C72**: from files to answered requests.  A torrent is created from files, its metadata is saved to a file that is none of them, and
the client is started on it with the same working directory.  If it starts up, no file has changed, it has the info-hash computed at creation, and a peer that
connects with this info-hash and keeps to the protocol is sent our handshake, a bitfield with every piece, and for each of its requests exactly
the bytes of the files it asked for. -/
theorem C72_end_to_end_partial (w : World) (hH : ∀ x, (w.H x).length = 20) (reads : Nat → Option Nat) (fs : FS.State) (fuel : Nat) (paths : List Bytes)
    (wd name : Bytes) (pl : Nat) (hpl : 0 < pl) (hmax : pl ≤ 5 * 1024 * 1024) (hpaths : paths.length ≠ 1 ∨ paths = [name])
    (hd : (paths.map (Join (filesDir paths wd name))).Nodup) (ti : TorInfo)
    (hti : CreateTorInfo w.H reads fs fuel paths wd name pl = .ok ti) (hl63 : ti.length < 2 ^ 63) (hn : ti.numPieces < 2 ^ 32)
    (announce file input : Bytes) (he : Encode (metainfo announce ti) = (file, none)) (hflen : file.length < 2 ^ 63)
    (hin : ∀ p ∈ paths, input ≠ Join (filesDir paths wd name) p) (port : UInt16) (id : Bytes) (hid : id.length = 20)
    (st : Started) (fs' : FS.State) (hst : NewSwarm false w ⟨input, wd, port⟩ id true (fs.set input file) (.ok st) fs') :
    ∃ cs t, Contents fs (filesDir paths wd name) paths cs ∧ NewTorrent w.H ti announce = .ok t ∧ st.tor = t ∧ fs' = fs.set input file ∧
      ∀ (ip : IP) (peerPort : UInt16) (hs pid : Bytes), IsHandshake hs t.infohash pid → ∀ (ptr : Nat) (chunks : List (List Wire.Msg)),
        (∀ ws ∈ chunks, ∀ m ∈ ws, Polite cs.flatten pl ti.numPieces m) → ∀ sfuel : Nat,
        (∀ ws ∈ chunks, ws.length < sfuel ∧ (stream ws).length < 2 ^ 32) →
        ∃ out hs' bits, incoming sfuel w.v6 ⟨some (ip, peerPort), true, some hs, true, true⟩ st.tor.infohash st.id st.core ptr true (fun _ => true)
            st.ppt (chunks.map stream) = (out, .ok ()) ∧
          IsHandshake hs' t.infohash id ∧ (∀ i, i < ti.numPieces → bit bits i = true) ∧
          out.flatten = hs' ++ stream (.bitfield bits :: .unchoke :: replies cs.flatten pl (fun _ => true) chunks.flatten) := by
  obtain ⟨cs, hc, hm⟩ := (created_made w.H reads fs fuel paths wd name pl hpl hmax).1 ti hti
  have hlen : paths.length = cs.length := by have := congrArg List.length hc; simpa using this
  obtain ⟨ti0, t1, t2⟩ := newTorInfo_created w.H hH (filesDir paths wd name) paths cs name pl hpl hlen
  rw [t1] at hm
  cases hm
  obtain ⟨g1, g2, g3, g4, g5, g6⟩ := newTorInfo_fields t1
  obtain ⟨t, ti', r1, r2, r3⟩ := C70_created_iff_partial w.H reads fs fuel paths wd name pl hpl hmax ti hti hl63 announce file w.spareFile he hflen
  have hti' := r3.mpr hpaths
  subst hti'
  have ht : t = ⟨t.infohash, announce, ti'⟩ := by
    unfold NewTorrent at r1
    split at r1
    · cases r1; rfl
    · cases r1
  -- the client loads what was saved
  obtain ⟨data, -, s2, s3, s4, s5⟩ := started_parts hst
  have hdata : data = file := by
    have : (fs.set input file) input = some file := by simp [FS.State.set]
    rw [this] at s2
    exact (Option.some.inj s2).symm
  subst hdata
  have htor : st.tor = t := by
    rw [r2] at s3
    rw [ht]
    exact (Res.ok.inj s3).symm
  have hinfo : st.tor.info = ti' := by rw [htor, ht]
  have hloc : ti'.flist.map (fun e => e.base.localPath) = paths.map (Join (filesDir paths wd name)) := by
    rw [show (fun e : Entry => e.base.localPath) = EntryBase.localPath ∘ Entry.base from rfl, ← List.map_map, g6]
    apply List.ext_getElem?
    intro k
    rw [List.getElem?_map, List.getElem?_zipWith, List.getElem?_map]
    cases hk : paths[k]? with
    | none => rfl
    | some p =>
      have : k < paths.length := (List.getElem?_eq_some_iff.mp hk).1
      rw [List.getElem?_eq_getElem (show k < cs.length by omega)]
      rfl
  have hsens : Sensible ti' := by
    refine ⟨by rw [g2]; omega, by rw [g2]; omega, ?_, by rw [hloc]; exact hd⟩
    intro e hm
    have : e.base ∈ ti'.flist.map Entry.base := List.mem_map_of_mem hm
    rw [g6] at this
    exact entries_nonneg _ _ _ _ this
  have hc' : Contents (fs.set input data) (filesDir paths wd name) paths cs := by
    unfold Contents at hc ⊢
    rw [← hc]
    apply List.map_congr_left
    intro p hp
    rw [FS.State.set, if_neg (fun h => hin p hp h.symm)]
  obtain ⟨c1, c2, c3, c4, c5, c6, c7, c8, c9, c10, -⟩ := C71_started w _ id true _ fs' st hst (by rw [hinfo]; exact hsens) (by rw [hinfo]; exact hn)
  have hprep : prepAll st.tor.info (fs.set input data) = cs := by
    rw [hinfo]
    unfold prepAll
    rw [show (fun e : Entry => prepared (old (fs.set input data) e.base.localPath) e.base.length.toNat) =
      (fun f : EntryBase => prepared (old (fs.set input data) f.localPath) f.length.toNat) ∘ Entry.base from rfl, ← List.map_map, g6]
    exact created_entry hc'
  have hfs : fs' = fs.set input data := by
    funext p
    by_cases hp : ∀ e ∈ st.tor.info.flist, p ≠ e.base.localPath
    · exact c3 p hp
    · have : ∃ e ∈ st.tor.info.flist, p = e.base.localPath := by
        apply Classical.byContradiction
        intro hcon
        exact hp fun e he heq => hcon ⟨e, he, heq⟩
      obtain ⟨e, hm, rfl⟩ := this
      obtain ⟨k, hk⟩ := List.getElem?_of_mem hm
      rw [c2 k e hk]
      -- the file has its recorded length already
      have hst' := contents_stored hc'
      have hz : (List.zipWith (entryFor (filesDir paths wd name)) paths cs)[k]? = some e.base := by
        rw [← g6, List.getElem?_map, ← hinfo, hk]; rfl
      have hkl : k < cs.length := by
        have := (List.getElem?_eq_some_iff.mp hz).1
        rw [List.length_zipWith] at this
        omega
      have hfile := hst'.2 k _ _ hz (List.getElem?_eq_getElem hkl)
      have hlen' : e.base.length.toNat = (cs[k]'hkl).length := by
        rw [List.getElem?_zipWith, List.getElem?_eq_getElem (show k < paths.length by omega), List.getElem?_eq_getElem hkl] at hz
        rw [← Option.some.inj hz]
        simp [entryFor, MakeFileEntry, EntryBase.SetLocalPath]
      unfold old
      rw [hfile, Option.getD_some, prepared_of_length _ _ hlen'.symm]
  refine ⟨cs, t, hc, r1, htor, hfs, ?_⟩
  intro ip peerPort hs pid hhs ptr chunks hw sfuel hfuel
  have hpl' : st.tor.info.pieceLen.toNat = pl := by rw [hinfo, g2]; rfl
  rw [hpl', hprep] at c6
  have hnum : st.core.tor.numPieces = ti'.numPieces := by rw [c7, hinfo]
  obtain ⟨out, hs', e1, e2, e3⟩ := C66_seeding_partial c6 [] st.ppt (by rw [hnum, ← hinfo]; exact c5) w.v6 ip peerPort hs t.infohash id pid hhs hid ptr
    [(MakePeer w.v6 pid ip peerPort).str] ⟨by simp, by simp, by simp⟩ chunks (by rw [hnum]; exact hw) sfuel hfuel
  have hours : ∀ i, i < ti'.numPieces → ours st.core i = true := by
    intro i hi
    have h4 := c4 i (by rw [hinfo]; exact hi)
    rw [hprep, hpl', hinfo, g3, pieceHashes_range w.H hH _ _ _ (by rw [← t2.numPieces]; exact hi), decide_eq_true rfl, get_nat] at h4
    split at h4
    · exact Res.ok.inj h4
    · cases h4
  refine ⟨out, hs', st.core.bf.data, ?_, e2, hours, ?_⟩
  · rw [htor, c9]; exact e1
  · rw [e3, replies_all hours chunks.flatten]
    intro m hm
    obtain ⟨ws, h1, h2⟩ := List.mem_flatten.mp hm
    exact hw ws h1 m h2

/-- `exWorld` with the hash function of the examples -/
def exWorld' : World := { exWorld with H := exH }

/-- the hypotheses of C72 hold for the three files of `exFs` -/
example : ∃ ti st fs', CreateTorInfo exWorld'.H (fun _ => some 2) exFs 6 [ascii "a", ascii "b", ascii "d/c"] (ascii "/w") (ascii "t") (8 : Nat) = .ok ti ∧
    Encode (metainfo (ascii "http://t") ti) = (exSaved, none) ∧
    NewSwarm false exWorld' ⟨ascii "/t", ascii "/w", 7000⟩ (List.replicate 20 65) true (exFs.set (ascii "/t") exSaved) (.ok st) fs' ∧
    (∀ p ∈ [ascii "a", ascii "b", ascii "d/c"], ascii "/t" ≠ Join (filesDir [ascii "a", ascii "b", ascii "d/c"] (ascii "/w") (ascii "t")) p) ∧
    ([ascii "a", ascii "b", ascii "d/c"].map (Join (filesDir [ascii "a", ascii "b", ascii "d/c"] (ascii "/w") (ascii "t")))).Nodup ∧
    ti.length < 2 ^ 63 ∧ ti.numPieces < 2 ^ 32 := by
  obtain ⟨ti, h1, h2, h3⟩ := ex_saved (fun _ => some 2) (fun _ => rfl)
  obtain ⟨cs, hc, hde⟩ := (C30_only_right_hashes_partial exH (by intro x; simp [exH]) (fun _ => some 2) exFs 6 [ascii "a", ascii "b", ascii "d/c"] (ascii "/w")
    (ascii "t") 8 (by decide) (by decide)).1 ti h1
  have hcs : cs = [[1, 2, 3, 4, 5], [], [6, 7, 8]] := by
    have : [[1, 2, 3, 4, 5], [], [6, 7, 8]].map some = cs.map some := by
      rw [← hc]; decide +kernel
    exact ((List.map_inj_right (fun _ _ h => Option.some.inj h)).mp this).symm
  subst hcs
  obtain ⟨t, ti', t1, t2, t3⟩ := C70_created_iff_partial exH _ exFs 6 [ascii "a", ascii "b", ascii "d/c"] (ascii "/w") (ascii "t") 8 (by decide) (by decide)
    ti h1 (by rw [h2]; decide) (ascii "http://t") exSaved [] h3 (by decide +kernel)
  have ht := t3.mpr (.inl (by decide))
  subst ht
  have hfiles := hde.files
  have hs : Sensible ti' := by
    refine ⟨by rw [hde.pieceLen]; decide, by rw [hde.pieceLen]; decide, ?_, ?_⟩
    · intro e he
      have hm : (e.base.torPath, e.base.localPath, e.base.length) ∈ ti'.flist.map (fun e => (e.base.torPath, e.base.localPath, e.base.length)) :=
        List.mem_map_of_mem he
      rw [hfiles] at hm
      simp only [List.zipWith_cons_cons, List.zipWith_nil_right, List.mem_cons, List.not_mem_nil, or_false, Prod.mk.injEq] at hm
      rcases hm with ⟨-, -, h⟩ | ⟨-, -, h⟩ | ⟨-, -, h⟩ <;> rw [h] <;> decide
    · have : (ti'.flist.map fun e => e.base.localPath) = (ti'.flist.map (fun e => (e.base.torPath, e.base.localPath, e.base.length))).map fun x => x.2.1 := by
        rw [List.map_map]; rfl
      rw [this, hfiles]
      decide +kernel
  have hc : NoControl (ascii "http://t") := by unfold NoControl; decide +kernel
  have hp : exWorld'.parseURL (ascii "http://t") = some [] := by decide +kernel
  obtain ⟨raw, q, r1, -⟩ := Tracker.request_values exWorld'.parseURL ⟨t.infohash, ascii "http://t", ti'⟩ (Tracker.NewStats 0 0 0) 7000 (List.replicate 20 65) [] hc hp
  obtain ⟨resp, hr⟩ := Res.isOk_iff (r := Tracker.doRequest exWorld.v6 exWorld.parseIP
    (some (ascii "d8:completei1e10:incompletei2e8:intervali9e5:peers6:\u0001\u0002\u0003\u0004\u0000\u0050e")) []) (by decide +kernel)
  obtain ⟨⟨st, fs', e1, e2⟩, -⟩ := C71_starts exWorld' ⟨ascii "/t", ascii "/w", 7000⟩ (List.replicate 20 65) (exFs.set (ascii "/t") exSaved) exSaved
    ⟨t.infohash, ascii "http://t", ti'⟩ rfl t2 hs raw r1 resp hr
  exact ⟨ti', st, fs', h1, h3, e1, by decide +kernel, by decide +kernel, by rw [h2]; decide, by rw [hde.numPieces]; decide +kernel⟩

/-- a file called `a` and another one called `b` -/
def exTwo : FS.State := fun p => if p = ascii "/w/a" then some [7] else if p = ascii "/w/b" then some [1, 2, 3] else none

/-- **C72** refuted: a torrent called `b` is created from the single file `a`.  A client started on it takes the file `b` next to it for the
data, cuts it to the length of `a`, and then has no piece, although `a` is where it was. -/
theorem C72_refuted_renamed : ∃ (ti : TorInfo) (file : Bytes) (st : Started) (fs' : FS.State),
    CreateTorInfo exWorld'.H (fun _ => some 9) exTwo 9 [ascii "a"] (ascii "/w") (ascii "b") 1 = .ok ti ∧
    Encode (metainfo (ascii "x") ti) = (file, none) ∧
    NewSwarm false exWorld' ⟨ascii "/t", ascii "/w", 7000⟩ (List.replicate 20 65) true (exTwo.set (ascii "/t") file) (.ok st) fs' ∧
    exTwo (ascii "/w/b") = some [1, 2, 3] ∧ fs' (ascii "/w/b") = some [1] ∧ fs' (ascii "/w/a") = some [7] ∧
    ti.numPieces = 1 ∧ st.core.bf.Get 0 = .ok false := by
  obtain ⟨ti, h1⟩ := Res.isOk_iff (r := CreateTorInfo exH (fun _ => some 9) exTwo 9 [ascii "a"] (ascii "/w") (ascii "b") 1)
    (by decide +kernel)
  obtain ⟨cs, hc, hm⟩ := (created_made exH _ _ 9 [ascii "a"] (ascii "/w") (ascii "b") 1 (by decide) (by decide)).1 ti h1
  obtain ⟨g1, g2, g3, g4, g5, g6⟩ := newTorInfo_fields hm
  have hcs : cs = [[7]] := by
    have : [[7]].map some = cs.map some := by
      rw [← hc]; decide +kernel
    exact ((List.map_inj_right (fun _ _ h => Option.some.inj h)).mp this).symm
  subst hcs
  have hph : pieceHashes exH [[7]].flatten 1 = exH [7] := by decide +kernel
  have he : Encode (metainfo (ascii "x") ti) = (ascii "d8:announce1:x4:infod6:lengthi1e4:name1:b12:piece lengthi1e6:pieces20:" ++ exH [7] ++ ascii "7:privatei0eee", none) := by
    unfold metainfo benInfo
    rw [g4.mpr rfl, g1, g2, g3, g5, hph]
    simp [exH, Encode, encode, encodeEntries, encodeSorted, List.mergeSort, List.MergeSort.Internal.splitInTwo,
      bytesLe, ascii, wrapEnc, seqEnc, encodeString, encodeInt, natDec_lt, intDec, natDec_12, natDec_20, entryFor,
      MakeFileEntry, EntryBase.SetLocalPath]
  obtain ⟨t, ti', t1, -, -, t2, u1, u2, u3, u4, u5, u6, t3, t4⟩ := C70_roundtrip exH (ascii "b") 1 (by decide) _ _ (entries_nonneg _ _ _) ti hm (by decide)
    (by decide +kernel) (ascii "x") _ [] (ascii "/w") he (by decide +kernel)
  have hpl : placed (ascii "/w") (ascii "b") (List.zipWith (entryFor (filesDir [ascii "a"] (ascii "/w") (ascii "b"))) [ascii "a"] [[7]]) =
      [⟨1, ascii "b", ascii "/w/b"⟩] := by decide +kernel
  rw [hpl] at t3
  have hnp : ti.numPieces = 1 := by
    obtain ⟨ti0, t1, t2⟩ := newTorInfo_created exH (by intro x; simp [exH]) (filesDir [ascii "a"] (ascii "/w") (ascii "b")) [ascii "a"] [[7]] (ascii "b") 1
      (by decide) rfl
    rw [t1] at hm
    cases hm
    rw [t2.numPieces]
    decide +kernel
  have hs : Sensible ti' := by
    refine ⟨by rw [u2, g2]; decide, by rw [u2, g2]; decide, ?_, ?_⟩
    · intro e he
      have : e.base ∈ ti'.flist.map Entry.base := List.mem_map_of_mem he
      rw [t3, List.mem_singleton] at this
      rw [this]
      decide
    · rw [show (fun e : Entry => e.base.localPath) = EntryBase.localPath ∘ Entry.base from rfl, ← List.map_map, t3]
      decide +kernel
  have hctl : NoControl (ascii "x") := by unfold NoControl; decide +kernel
  have hp : exWorld'.parseURL (ascii "x") = some [] := by decide +kernel
  obtain ⟨raw, q, r1, -⟩ := Tracker.request_values exWorld'.parseURL ⟨t.infohash, ascii "x", ti'⟩ (Tracker.NewStats 0 0 0) 7000 (List.replicate 20 65) [] hctl hp
  obtain ⟨resp, hr⟩ := Res.isOk_iff (r := Tracker.doRequest exWorld.v6 exWorld.parseIP
    (some (ascii "d8:completei1e10:incompletei2e8:intervali9e5:peers6:\u0001\u0002\u0003\u0004\u0000\u0050e")) []) (by decide +kernel)
  obtain ⟨⟨st, fs', e1, e2⟩, -⟩ := C71_starts exWorld' ⟨ascii "/t", ascii "/w", 7000⟩ (List.replicate 20 65) (exTwo.set (ascii "/t") _) _
    ⟨t.infohash, ascii "x", ti'⟩ rfl t2 hs raw r1 resp hr
  have hinfo : st.tor.info = ti' := by rw [e2]
  obtain ⟨-, c2, c3, c4, -⟩ := C71_started _ _ _ _ _ _ st e1 (by rw [hinfo]; exact hs) (by rw [hinfo, u4, hnp]; decide)
  have hone : ∃ e, ti'.flist = [e] ∧ e.base = ⟨1, ascii "b", ascii "/w/b"⟩ := by
    cases hfl : ti'.flist with
    | nil => rw [hfl] at t3; cases t3
    | cons e es =>
      rw [hfl, List.map_cons, List.cons.injEq, List.map_eq_nil_iff] at t3
      exact ⟨e, by rw [t3.2], t3.1⟩
  obtain ⟨e, hfl, hb⟩ := hone
  rw [hinfo] at c2 c3 c4
  refine ⟨ti, _, st, fs', h1, he, e1, by decide +kernel, ?_, ?_, hnp, ?_⟩
  · have := c2 0 e (by rw [hfl]; rfl)
    rw [hb] at this
    rw [this]
    decide +kernel
  · rw [c3 (ascii "/w/a") (by rw [hfl]; intro x hx; rw [List.mem_singleton] at hx; rw [hx, hb]; decide)]
    decide +kernel
  · have := c4 0 (by rw [u4, hnp]; decide)
    unfold prepAll at this
    rw [hfl, List.map_singleton, hb, u2, g2, u3, g3, hph] at this
    rw [show ((0 : Nat) : Int) = 0 from rfl] at this
    rw [this]
    decide +kernel

end Verif.Startup
