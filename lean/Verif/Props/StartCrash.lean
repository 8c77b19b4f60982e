import Verif.Props.Start
/-
C76, C99: what the process can crash of.
-/
set_option autoImplicit false

namespace Verif.Peers
open Verif.Lts Verif.Peer Verif.Handshake Verif.Session Verif.PeersSpec Verif.SessionSpec Verif.Files Verif.MsgHandler Verif.Layout Verif.Wire Verif.P2P Verif.PieceTracker

/-- **C76**: the process only crashes of what peers send: bytes whose decoding panics, or a message whose handling does.  Connecting, asking for pieces and sending keep-alives never crash it. -/
theorem C76_crash {pl : Nat} {hashes : Bytes} {files : List EntryBase} {cs : List Bytes} {E : Env} (h : Ready pl hashes files cs E)
    (hn : E.s.tor.numPieces ≤ 2 ^ 32) {σ₀ σ σ' : Client} (h0 : Initial E σ₀) (hr : Reach (Step E) σ₀ σ) (hs : Step E σ σ') (hc : σ'.crashed = true) :
    ∃ i c, σ.conns[i]? = some c ∧ c.recv = .running ∧ ((c.todo = [] ∧ ∃ buf fuel, σ'.conns = σ.conns.set i { c with got := c.got ++ [buf] } ∧ DecodeAll fuel buf = .panic) ∨
      ∃ m ms ok st, c.todo = m :: ms ∧ handleOne E.s c.me (fun _ => ok) m (c.st σ.ppt) = (st, .panic)) := by
  have hsound := reach_sound h hn h0 hr
  have good : σ.crashed = false → Good E cs.flatten pl σ := hsound.1
  cases hs with
  | incoming _ _ _ _ _ _ _ e => exact absurd (e.symm.trans hc) nofun
  | incomingPanic c e hp =>
    obtain ⟨hwf, hfits⟩ := bf_fits h hn
    rcases hp with hp | ⟨p, -, hp⟩
    · exact absurd hp (incoming_no_panic _ _ _ _ _ hwf hfits)
    · obtain ⟨b0, e⟩ := newHandler h.run p
      rw [hp] at e; cases e
  | outgoing _ _ _ _ _ _ _ e => exact absurd (e.symm.trans hc) nofun
  | outgoingPanic p _ hp =>
    obtain ⟨b0, e⟩ := newHandler h.run p
    rw [hp] at e; cases e
  | receive _ _ _ _ _ e => exact absurd (e.symm.trans hc) nofun
  | receivePanic i c buf fuel _ hi hrun ht hd => exact ⟨i, c, hi, hrun, .inl ⟨ht, buf, fuel, rfl, hd⟩⟩
  | receiveHangs _ _ _ e => exact absurd (e.symm.trans hc) nofun
  | handle _ _ _ _ _ _ e => exact absurd (e.symm.trans hc) nofun
  | handleError _ _ _ _ _ _ _ e => exact absurd (e.symm.trans hc) nofun
  | handlePanic i c m ms ok st _ hi hrun ht hh => exact ⟨i, c, hi, hrun, .inr ⟨m, ms, ok, st, ht, hh⟩⟩
  | handleHangs _ _ _ _ _ _ e => exact absurd (e.symm.trans hc) nofun
  | request _ _ _ _ _ _ _ _ e => exact absurd (e.symm.trans hc) nofun
  | requestHangs _ _ _ _ e => exact absurd (e.symm.trans hc) nofun
  | requestNone _ _ _ _ e => exact absurd (e.symm.trans hc) nofun
  | requestPanic i c e hi hb ha hq hnp =>
    obtain ⟨t', n', b', e', -⟩ := nextPiece_good h (good e) hi
    rw [hnp] at e'
    cases e'
  | ping _ _ _ e => exact absurd (e.symm.trans hc) nofun

end Verif.Peers

namespace Verif.Start
open Verif.Lts Verif.Peers Verif.Peer Verif.Handshake Verif.Session Verif.Startup Verif.PeersSpec Verif.SessionSpec Verif.Files Verif.FS Verif.MsgHandler
  Verif.Layout Verif.Wire Verif.Torrent Verif.P2P Verif.PieceTracker

/-- **C99**, what the process can crash of once it has started up: the port cannot be opened, or a connection has received bytes or a message that it cannot deal with.  Neither calling
peers nor being called crashes it. -/
theorem C99_crash (w : World) (hH : ∀ x, (w.H x).length = 20) (o : Options) (id : Bytes) (hid : id.length = 20) (readOk : Bool) (fs fs' : FS.State) (st : Started)
    (h : NewSwarm false w o id readOk fs (.ok st) fs') (hs : Sensible st.tor.info) (hn : st.tor.info.numPieces < 2 ^ 32)
    (σ σ' : State) (hr : Reach (Step (env w st) o.port) (begin st) σ) (step : Step (env w st) o.port σ σ') (hc : σ.client.crashed = false) (hc' : σ'.client.crashed = true) :
    (σ.listening = none ∧ σ'.client = { σ.client with crashed := true }) ∨ ∃ i c, σ.client.conns[i]? = some c ∧ c.recv = .running ∧
      ((c.todo = [] ∧ ∃ buf fuel, σ'.client.conns = σ.client.conns.set i { c with got := c.got ++ [buf] } ∧ DecodeAll fuel buf = .panic) ∨
      ∃ m ms ok s, c.todo = m :: ms ∧ handleOne (env w st).s c.me (fun _ => ok) m (c.st σ.client.ppt) = (s, .panic)) := by
  obtain ⟨hready, hinit, htor⟩ := started_ready w hH o id hid readOk fs fs' st h hs hn
  have hnum : (env w st).s.tor.numPieces ≤ 2 ^ 32 := by rw [htor]; omega
  have hreach : Reach (Peers.Step (env w st)) ⟨st.ppt, [], false⟩ σ.client := by
    rcases (kept hr).reach with e | ⟨-, e⟩
    · exact e
    · rw [hc] at e; cases e
  cases step with
  | spawn => exact absurd (hc.symm.trans hc') nofun
  | fails => exact absurd (hc.symm.trans hc') nofun
  | connected => exact absurd (hc.symm.trans hc') nofun
  | listen => exact absurd (hc.symm.trans hc') nofun
  | incoming => exact absurd (hc.symm.trans hc') nofun
  | listenPanic _ e => exact .inl ⟨e, rfl⟩
  | connectPanic i p p' d1 d2 out _ hi h1 h2 =>
    obtain ⟨b0, e⟩ := newHandler hready.run p'
    rw [h2] at e; cases e
  | incomingPanic c _ q hl hp => exact .inr (C76_crash hready hnum hinit hreach (.incomingPanic c hc hp) rfl)
  | work client' hw _ => exact .inr (C76_crash hready hnum hinit hreach hw hc')

/-- both cases: the port is taken; and, after all peers have been called, one of them sends a piece -/
example : ∃ (st : Started) (fs' : FS.State) (σ1 σ2 σ3 : State), NewSwarm false exWorld2 exOptions (List.replicate 20 65) true exDisk (.ok st) fs' ∧ Sensible st.tor.info ∧
    st.tor.info.numPieces < 2 ^ 32 ∧ Step (env exWorld2 st) exOptions.port (begin st) σ1 ∧ (begin st).client.crashed = false ∧ σ1.client.crashed = true ∧
    Reach (Step (env exWorld2 st) exOptions.port) (begin st) σ2 ∧ Step (env exWorld2 st) exOptions.port σ2 σ3 ∧ σ2.client.crashed = false ∧ σ3.client.crashed = true := by
  obtain ⟨st, fs', h1, h2, h3, h4, h5, h6, h9, h7⟩ := ex_starts2
  obtain ⟨σ, new, r, g1, -, -, -, g5, g6, -, g8⟩ := C99_reaches exWorld2 (fun _ => List.length_replicate) exOptions (List.replicate 20 65) List.length_replicate true exDisk fs' st h1 h2 (by rw [h3]; decide) (begin st) rfl
  have hnew : new.map Conn.peer = st.peers := g6
  have hconns : σ.client.conns = new := g5
  have hlen : σ.client.conns.length = 3 := by rw [hconns, ← List.length_map (f := Conn.peer), hnew, h7]; rfl
  obtain ⟨c, hc⟩ : ∃ c, σ.client.conns[0]? = some c := ⟨_, List.getElem?_eq_getElem (by rw [hlen]; decide)⟩
  obtain ⟨c1, c2, c3⟩ := g8 c (by rw [← hconns]; exact List.mem_of_getElem? hc)
  have hdec : DecodeAll 3 [0, 0, 0, 9, 7, 0, 0, 0, 0, 0, 0, 0, 0] = .panic := by decide +kernel
  exact ⟨st, fs', _, σ, _, h1, h2, by rw [h3]; decide, .listenPanic rfl rfl, rfl, rfl, r,
    Step.work (E := env exWorld2 st) (port := exOptions.port) (σ := σ) _ (.receivePanic 0 c _ _ g1 hc c1 c2 hdec) (by simp [Client.set]), g1, rfl⟩

end Verif.Start
