import Verif.Model.Start
import Verif.Props.Startup
import Verif.Props.Peers
import Verif.Lemmas.Lts
/-
Property C99: from start-up to all peers.
-/
set_option autoImplicit false

namespace Verif.Start
open Verif.Lts Verif.Peers Verif.Peer Verif.Handshake Verif.Session Verif.Startup Verif.PeersSpec Verif.SessionSpec Verif.Files Verif.FS Verif.Query Verif.MsgHandler
  Verif.Layout Verif.Wire Verif.Torrent Verif.P2P Verif.PieceTracker Verif.Bencode.Spec

/-- the peers to which we have made connections -/
def State.called (σ : State) : List Info := (((σ.client.conns.map Conn.peer).zip σ.ours).filter fun x => x.2).map Prod.fst

/-- the peers that have connected to us -/
def State.guests (σ : State) : List Info := (((σ.client.conns.map Conn.peer).zip σ.ours).filter fun x => !x.2).map Prod.fst

/-- who is at the other end of a connection does not change -/
theorem step_peers {E : Env} {σ σ' : Client} (h : Peers.Step E σ σ') (hn : σ'.conns.length = σ.conns.length) : σ'.conns.map Conn.peer = σ.conns.map Conn.peer := by
  have upd : ∀ (i : Nat) (c c' : Conn), σ.conns[i]? = some c → c'.peer = c.peer → (σ.conns.set i c').map Conn.peer = σ.conns.map Conn.peer := by
    intro i c c' hi e
    rw [List.map_set, e]
    refine List.ext_getElem? fun j => ?_
    rw [List.getElem?_set, List.getElem?_map]
    split
    · rename_i hij
      subst hij
      rw [List.length_map, hi]
      obtain ⟨hlt, -⟩ := List.getElem?_eq_some_iff.mp hi
      simp [hlt]
    · rfl
  cases h with
  | incoming => simp at hn
  | outgoing => simp at hn
  | incomingPanic | outgoingPanic | handlePanic | requestNone | requestPanic => rfl
  | receive i c _ _ _ _ hi => exact upd i c _ hi rfl
  | receivePanic i c _ _ _ hi => exact upd i c _ hi rfl
  | receiveHangs i c _ _ hi => exact upd i c _ hi rfl
  | handle i c _ _ _ _ _ hi => exact upd i c _ hi rfl
  | handleError i c _ _ _ _ _ _ hi => exact upd i c _ hi rfl
  | handleHangs i c _ _ _ _ _ hi => exact upd i c _ hi rfl
  | request i c _ _ _ _ _ _ _ hi => exact upd i c _ hi rfl
  | requestHangs i c _ _ _ hi => exact upd i c _ hi rfl
  | ping i c _ _ hi => exact upd i c _ hi rfl

theorem fromBootstrap_ok {dialOk writeOk : Bool} {p p' : Info} {ih own : Bytes} {out : List Bytes} (h : FromBootstrap dialOk writeOk p ih own = (out, .ok p')) :
    p' = p ∧ FromBootstrap true true p ih own = (out, .ok p) := by
  unfold FromBootstrap at h
  split at h
  · cases h
  · split at h
    · cases h
    · cases h
      exact ⟨rfl, rfl⟩

/-- what is the same in every state that can be reached -/
structure Kept (E : Env) (port : UInt16) (σ₀ : Client) (peers : List Info) (σ : State) : Prop where
  len : σ.ours.length = σ.client.conns.length
  perm : (σ.called ++ σ.failed ++ σ.calling ++ σ.rest).Perm peers
  port : σ.listening = none ∨ σ.listening = some port
  guests : σ.listening = none → σ.guests = []
  reach : Reach (Peers.Step E) σ₀ σ.client ∨ (σ.listening = none ∧ σ.client.crashed = true)

theorem zip_add {α β : Type} (l : List α) (o : List β) (h : o.length = l.length) (a : α) (b : β) : (l ++ [a]).zip (o ++ [b]) = l.zip o ++ [(a, b)] := by
  rw [List.zip_append h.symm]
  rfl

theorem kept_step {E : Env} {port : UInt16} {σ₀ : Client} {peers : List Info} {σ σ' : State} (h : Kept E port σ₀ peers σ) (hs : Step E port σ σ') :
    Kept E port σ₀ peers σ' := by
  obtain ⟨k1, k2, k3, k4, k5⟩ := h
  have hl : σ.ours.length = (σ.client.conns.map Conn.peer).length := by rw [k1, List.length_map]
  have out : ∀ (i : Nat) (p : Info), σ.calling[i]? = some p → σ.calling.Perm (p :: σ.calling.eraseIdx i) := by
    intro i p hi
    obtain ⟨hlt, rfl⟩ := List.getElem?_eq_some_iff.mp hi
    rw [List.eraseIdx_eq_take_drop_succ]
    have : σ.calling = σ.calling.take i ++ σ.calling[i] :: σ.calling.drop (i + 1) := by rw [← List.drop_eq_getElem_cons hlt, List.take_append_drop]
    exact .trans (.of_eq this) List.perm_middle
  have live : σ.client.crashed = false → Reach (Peers.Step E) σ₀ σ.client := by
    intro hc
    rcases k5 with h | ⟨-, h⟩
    · exact h
    · rw [hc] at h; cases h
  cases hs with
  | spawn p ps hc h =>
    refine ⟨k1, .trans ?_ k2, k3, k4, k5⟩
    rw [h]
    simp only [State.called, List.append_assoc, List.cons_append, List.nil_append]
    exact .refl _
  | fails i p _ _ _ _ hc hi _ =>
    refine ⟨k1, .trans ?_ k2, k3, k4, k5⟩
    refine List.Perm.append_right _ ?_
    show (σ.called ++ (σ.failed ++ [p]) ++ σ.calling.eraseIdx i).Perm _
    refine .trans ?_ (List.Perm.append_left _ (out i p hi).symm)
    simp only [List.append_assoc, List.cons_append, List.nil_append]
    exact .refl _
  | connected i p p' d wr o first ph ptr ok hc hi h1 h2 h3 =>
    obtain ⟨rfl, h1'⟩ := fromBootstrap_ok h1
    refine ⟨by simp [k1], .trans ?_ k2, k3, ?_, .inl (.tail _ _ (live hc) (.outgoing p' p' o first ph ptr ok hc h1' h2 h3))⟩
    · refine List.Perm.append_right _ ?_
      have : (State.called { σ with client := { σ.client with conns := σ.client.conns ++ [newConn p' ptr ph (o ++ first)] }, calling := σ.calling.eraseIdx i, ours := σ.ours ++ [true] }) = σ.called ++ [p'] := by
        simp only [State.called, List.map_append, List.map_cons, List.map_nil]
        rw [zip_add _ _ hl, List.filter_append, List.map_append]
        rfl
      rw [this]
      show (σ.called ++ [p'] ++ σ.failed ++ σ.calling.eraseIdx i).Perm _
      refine .trans ?_ (List.Perm.append_left _ (out i p' hi).symm)
      simp only [List.append_assoc, List.cons_append, List.nil_append]
      exact List.Perm.append_left _ List.perm_middle.symm
    · intro hn
      have := k4 hn
      simp only [State.guests, List.map_append, List.map_cons, List.map_nil] at this ⊢
      rw [zip_add _ _ hl, List.filter_append, List.map_append, this]
      rfl
  | connectPanic i p p' d wr o hc hi h1 h2 =>
    obtain ⟨rfl, -⟩ := fromBootstrap_ok h1
    exact ⟨k1, k2, k3, k4, .inl (.tail _ _ (live hc) (.outgoingPanic p' hc h2))⟩
  | listen hc h => exact ⟨k1, k2, .inr rfl, fun e => (by cases e), .inl (live hc)⟩
  | listenPanic hc h => exact ⟨k1, k2, k3, k4, .inr ⟨h, rfl⟩⟩
  | incoming c o first p ph ptr ok hc q hq h1 h2 h3 =>
    refine ⟨by simp [k1], ?_, k3, fun hn => ?_, .inl (.tail _ _ (live hc) (.incoming c o first p ph ptr ok hc h1 h2 h3))⟩
    · have : (State.called { σ with client := { σ.client with conns := σ.client.conns ++ [newConn p ptr ph (o ++ first)] }, ours := σ.ours ++ [false] }) = σ.called := by
        simp only [State.called, List.map_append, List.map_cons, List.map_nil]
        rw [zip_add _ _ hl, List.filter_append, List.map_append]
        simp
      rw [this]
      exact k2
    · rw [show σ.listening = none from hn] at hq
      cases hq
  | incomingPanic c hc q hq h => exact ⟨k1, k2, k3, k4, .inl (.tail _ _ (live hc) (.incomingPanic c hc h))⟩
  | work client' h hn =>
    have hp := step_peers h hn
    have hc : σ.client.crashed = false := by
      cases hcr : σ.client.crashed with
      | false => rfl
      | true => exact absurd h (crashed_stuck hcr _)
    refine ⟨by rw [k1]; exact hn.symm, ?_, k3, ?_, .inl (.tail _ _ (live hc) h)⟩
    · simp only [State.called, hp]; exact k2
    · simp only [State.guests, hp]; exact k4

theorem kept {E : Env} {port : UInt16} {st : Started} {σ : State} (hr : Reach (Step E port) (begin st) σ) : Kept E port ⟨st.ppt, [], false⟩ st.peers σ := by
  induction hr with
  | refl => exact ⟨rfl, .refl _, .inl rfl, fun _ => rfl, .inl .refl⟩
  | tail s' s'' _ hs ih => exact kept_step ih hs

/-- a client that has started up is one to which the properties of connections apply (C76, C83, C91, C95 to C98) -/
theorem started_ready (w : World) (hH : ∀ x, (w.H x).length = 20) (o : Options) (id : Bytes) (hid : id.length = 20) (readOk : Bool) (fs fs' : FS.State) (st : Started)
    (h : NewSwarm false w o id readOk fs (.ok st) fs') (hs : Sensible st.tor.info) (hn : st.tor.info.numPieces < 2 ^ 32) :
    Ready st.tor.info.pieceLen.toNat st.tor.info.hashes (st.tor.info.flist.map Entry.base) (prepAll st.tor.info fs) (env w st) ∧
    Initial (env w st) ⟨st.ppt, [], false⟩ ∧ (env w st).s.tor = st.tor.info := by
  obtain ⟨⟨data, -, hf⟩, -, -, -, -, hrun, htor, -, hid', -⟩ := C71_started w o id readOk fs fs' st h hs hn
  obtain ⟨_, _, -, -, -, -, hih⟩ := fromTorrentFile_ok hf
  obtain ⟨_, -, -, -, -, hfin⟩ := started_parts h
  obtain ⟨b0, b, resp, ppt, -, -, -, f4, f5⟩ := finish_ok hfin
  have hp : st.ppt = ppt := by rw [f5]
  refine ⟨⟨hrun, ?_, ?_⟩, ⟨?_, rfl, rfl⟩, htor⟩
  · show st.tor.infohash.length = 20
    rw [hih]; exact hH _
  · show st.id.length = 20
    rw [hid']; exact hid
  · show NewPeerPieceTracker st.core.tor.numPieces = .ok st.ppt
    rw [htor, hp, ← f4]
    congr 1
    rw [UInt32.toNat_ofNat']
    exact (Nat.mod_eq_of_lt hn).symm

/-- **C99**: at any time after start-up, every entry of the list in the tracker's answer is in exactly one of these groups: we are connected to it, the call
failed, we are calling it, its turn has not come yet.  So everybody in the list is called once, and nobody else is called: all other connections were made by others. -/
theorem C99_calls (w : World) (o : Options) (id : Bytes) (readOk : Bool) (fs fs' : FS.State) (st : Started)
    (h : NewSwarm false w o id readOk fs (.ok st) fs') (hs : Sensible st.tor.info) (hn : st.tor.info.numPieces < 2 ^ 32)
    (σ : State) (hr : Reach (Step (env w st) o.port) (begin st) σ) :
    ∃ raw body peers, Tracker.newRequest w.parseURL st.tor (Tracker.NewStats 0 0 0) o.port id = .ok raw ∧ w.http raw = some body ∧
      Tracker.doRequest w.v6 w.parseIP (some body) w.spareBody = .ok ⟨st.state, peers⟩ ∧
      (σ.called ++ σ.failed ++ σ.calling ++ σ.rest).Perm peers ∧ (σ.called ++ σ.guests).Perm (σ.client.conns.map Conn.peer) := by
  obtain ⟨-, -, -, -, -, -, -, -, h1, h2, raw, body, h3, h4, h5⟩ := C71_started w o id readOk fs fs' st h hs hn
  rw [started_stats h, h1, h2] at h3
  have k := kept hr
  refine ⟨raw, body, st.peers, h3, h4, h5, k.perm, ?_⟩
  have hz : ((σ.client.conns.map Conn.peer).zip σ.ours).map Prod.fst = σ.client.conns.map Conn.peer := by
    rw [List.map_fst_zip]
    rw [k.len, List.length_map]
    exact Nat.le_refl _
  rw [← hz]
  unfold State.called State.guests
  rw [← List.map_append]
  refine List.Perm.map _ ?_
  exact List.filter_append_perm _ _

/-- **C99**: the port that others can connect to is the one that the tracker was told, and nobody connects before it is open. -/
theorem C99_port (w : World) (o : Options) (id : Bytes) (readOk : Bool) (fs fs' : FS.State) (st : Started)
    (h : NewSwarm false w o id readOk fs (.ok st) fs') (hs : Sensible st.tor.info) (hn : st.tor.info.numPieces < 2 ^ 32)
    (extra : List (Bytes × Bytes)) (hc : NoControl st.tor.announce) (hp : w.parseURL st.tor.announce = some extra)
    (hid : ∀ c ∈ id, Unreserved c) (hex : ∀ p ∈ extra, p.1 ∉ (Tracker.announced [] [] 0 0 0 0).map Prod.fst)
    (σ : State) (hr : Reach (Step (env w st) o.port) (begin st) σ) :
    (∃ raw q body, parseQuery raw = some q ∧ w.http raw = some body ∧ values q (ascii "info_hash") = [(env w st).infohash] ∧ values q (ascii "peer_id") = [(env w st).ownId] ∧
      ∀ port, σ.listening = some port → values q (ascii "port") = [decNat port.toNat]) ∧
    (σ.guests ≠ [] → ∃ port, σ.listening = some port) := by
  have k := kept hr
  obtain ⟨raw, q, body, r1, r2, -, r3, r4, r5, -⟩ := C71_announced w o id readOk fs fs' st h hs hn extra hc hp hid hex
  obtain ⟨-, -, -, -, -, -, -, -, hid', -⟩ := C71_started w o id readOk fs fs' st h hs hn
  refine ⟨⟨raw, q, body, r1, r2, r3, by rw [r4, ← hid']; rfl, ?_⟩, ?_⟩
  · intro port hl
    rcases k.port with e | e
    · rw [e] at hl; cases hl
    · rw [e] at hl; cases hl; exact r5
  · intro hg
    cases e : σ.listening with
    | none => exact absurd (k.guests e) hg
    | some port => exact ⟨port, rfl⟩

/-- **C99** (partial: as long as the process lives, see `C99_refuted_listen` and `C76_refuted_crash`).  From the torrent file to every peer: whatever the other peers do, a peer
that keeps to the protocol gets the greeting and exactly the answers to its messages, from the files as they were before start-up (cut or filled up to their lengths);
the pieces served are those whose hash is the one in the torrent file. -/
theorem C99_served_partial (w : World) (hH : ∀ x, (w.H x).length = 20) (o : Options) (id : Bytes) (hid : id.length = 20) (readOk : Bool) (fs fs' : FS.State) (st : Started)
    (h : NewSwarm false w o id readOk fs (.ok st) fs') (hs : Sensible st.tor.info) (hn : st.tor.info.numPieces < 2 ^ 32)
    (σ : State) (hr : Reach (Step (env w st) o.port) (begin st) σ) (hc : σ.client.crashed = false) (c : Conn) (hm : c ∈ σ.client.conns) (ws : List Wire.Msg)
    (hw : Delivered (prepAll st.tor.info fs).flatten st.tor.info.pieceLen.toNat st.tor.info.numPieces c.got ws) :
    ∃ good : Nat → Bool, (∀ i, i < st.tor.info.numPieces →
        good i = decide (w.H (pieceOf (prepAll st.tor.info fs).flatten st.tor.info.pieceLen.toNat i) = range st.tor.info.hashes (20 * i) 20)) ∧
      ∃ start done rest, Greeting st.tor.infohash id st.core.bf.data start ∧ ws = done ++ rest ∧ c.handled = done.map received ∧
        c.out.filter (· ≠ wire .keepAlive) = start ++ (replies (prepAll st.tor.info fs).flatten st.tor.info.pieceLen.toNat good done).map wire ∧
        (c.todo = [] → rest = []) ∧ c.recv ≠ .hangs := by
  obtain ⟨hready, hinit, htor⟩ := started_ready w hH o id hid readOk fs fs' st h hs hn
  obtain ⟨-, -, -, hbf, -, hrun, htor', -, hid', -⟩ := C71_started w o id readOk fs fs' st h hs hn
  have hreach : Reach (Peers.Step (env w st)) ⟨st.ppt, [], false⟩ σ.client := by
    rcases (kept hr).reach with h | ⟨-, h⟩
    · exact h
    · rw [hc] at h; cases h
  obtain ⟨start, done, rest, g1, g2, g3, g4, g5, g6⟩ := C76_served_partial hready (by rw [htor]; omega) _ _ hinit hreach hc c hm ws (by rw [htor]; exact hw)
  refine ⟨ours st.core, ?_, start, done, rest, by rw [← hid']; exact g1, g2, g3, g4, g5, g6⟩
  intro i hi
  have := hbf i hi
  rw [Bf.get_nat, if_pos (in_range hrun i (by rw [htor']; exact hi))] at this
  exact Res.ok.inj this

/-- all goroutines are started -/
theorem spawnAll {E : Env} {port : UInt16} (rest : List Info) : ∀ σ : State, σ.client.crashed = false → σ.rest = rest →
    Reach (Step E port) σ { σ with rest := [], calling := σ.calling ++ rest } := by
  induction rest with
  | nil =>
    intro σ _ e
    have : ({ σ with rest := [], calling := σ.calling ++ [] } : State) = σ := by cases σ; simp_all
    rw [this]; exact .refl
  | cons p ps ih =>
    intro σ hc e
    have := ih { σ with rest := ps, calling := σ.calling ++ [p] } hc rfl
    simp only [List.append_assoc, List.cons_append, List.nil_append] at this
    exact .head (.spawn p ps hc e) this

/-- **C99**: while the process lives, all those who are still to be called can be reached: if the network works, we get connected to all of them, and the connections there are
are left alone. -/
theorem C99_reaches (w : World) (hH : ∀ x, (w.H x).length = 20) (o : Options) (id : Bytes) (hid : id.length = 20) (readOk : Bool) (fs fs' : FS.State) (st : Started)
    (h : NewSwarm false w o id readOk fs (.ok st) fs') (hs : Sensible st.tor.info) (hn : st.tor.info.numPieces < 2 ^ 32)
    (σ : State) (hc : σ.client.crashed = false) :
    ∃ σ' new, Reach (Step (env w st) o.port) σ σ' ∧ σ'.client.crashed = false ∧ σ'.rest = [] ∧ σ'.calling = [] ∧ σ'.failed = σ.failed ∧
      σ'.client.conns = σ.client.conns ++ new ∧ new.map Conn.peer = σ.calling ++ σ.rest ∧ σ'.ours = σ.ours ++ List.replicate new.length true ∧
      ∀ c ∈ new, c.recv = .running ∧ c.todo = [] ∧ c.got = [] := by
  obtain ⟨hready, -, htor⟩ := started_ready w hH o id hid readOk fs fs' st h hs hn
  generalize hE : env w st = E at hready
  have callAll : ∀ (calling : List Info) (σ : State), σ.client.crashed = false → σ.calling = calling → σ.rest = [] →
      ∃ σ' new, Reach (Step E o.port) σ σ' ∧ σ'.client.crashed = false ∧ σ'.rest = [] ∧ σ'.calling = [] ∧ σ'.failed = σ.failed ∧
        σ'.client.conns = σ.client.conns ++ new ∧ new.map Conn.peer = calling ∧ σ'.ours = σ.ours ++ List.replicate new.length true ∧
        ∀ c ∈ new, c.recv = .running ∧ c.todo = [] ∧ c.got = [] := by
    intro calling
    induction calling with
    | nil => intro σ hc e er; exact ⟨σ, [], .refl, hc, er, e, rfl, by simp, rfl, by simp, nofun⟩
    | cons p ps ih =>
      intro σ hc e er
      obtain ⟨b0, hph⟩ := newHandler hready.run p
      have s1 := Step.connected (E := E) (port := o.port) (σ := σ) 0 p p true true _ _ _ σ.client.conns.length true hc (by rw [e]; rfl) rfl hph
        (show firstMessage true = .ok [wire .unchoke] from rfl)
      generalize hcn : newConn _ _ _ _ = c at s1
      have hcp : c.peer = p ∧ c.recv = .running ∧ c.todo = [] ∧ c.got = [] := by rw [← hcn]; exact ⟨rfl, rfl, rfl, rfl⟩
      obtain ⟨σ', new, r, g1, g2, g3, g4, g5, g6, g7, g8⟩ := ih _ (show ({ σ with client := { σ.client with conns := σ.client.conns ++ [c] }, calling := σ.calling.eraseIdx 0, ours := σ.ours ++ [true] } : State).client.crashed = false from hc)
        (show σ.calling.eraseIdx 0 = ps by rw [e]; rfl) er
      refine ⟨σ', c :: new, .head s1 r, g1, g2, g3, g4, by rw [g5]; simp, by simp [hcp.1, g6], ?_, ?_⟩
      · rw [g7, List.length_cons, List.replicate_succ]
        simp
      · intro x hx
        rcases List.mem_cons.mp hx with rfl | hx
        · exact hcp.2
        · exact g8 x hx
  obtain ⟨σ', new, r, g1, g2, g3, g4, g5, g6, g7, g8⟩ := callAll _ _ (show ({ σ with rest := [], calling := σ.calling ++ σ.rest } : State).client.crashed = false from hc) rfl rfl
  exact ⟨σ', new, (spawnAll _ σ hc rfl).trans r, g1, g2, g3, g4, g5, g6, g7, g8⟩

/-- **C99**: while the process lives, everybody can connect to us: once the port has been opened, whoever sends a handshake for the torrent is greeted and gets a connection of their own;
the connections there are are left alone. -/
theorem C99_guests (w : World) (hH : ∀ x, (w.H x).length = 20) (o : Options) (id : Bytes) (hid : id.length = 20) (readOk : Bool) (fs fs' : FS.State) (st : Started)
    (h : NewSwarm false w o id readOk fs (.ok st) fs') (hs : Sensible st.tor.info) (hn : st.tor.info.numPieces < 2 ^ 32)
    (σ : State) (hr : Reach (Step (env w st) o.port) (begin st) σ) (hc : σ.client.crashed = false) (hello them : Bytes) (hh : HandshakeSpec.IsHandshake hello st.tor.infohash them) (ip : IP) (port : UInt16) :
    ∃ σ' c greeting, Reach (Step (env w st) o.port) σ σ' ∧ σ'.client.crashed = false ∧ σ'.listening = some o.port ∧ σ'.client.conns = σ.client.conns ++ [c] ∧ σ'.ours = σ.ours ++ [false] ∧
      c.peer = MakePeer w.v6 them ip port ∧ c.recv = .running ∧ c.todo = [] ∧ c.got = [] ∧ c.out = greeting ++ [wire (.bitfield st.core.bf.data), wire .unchoke] ∧
      ∃ mine, greeting = [mine] ∧ HandshakeSpec.IsHandshake mine st.tor.infohash id := by
  obtain ⟨hready, -, htor⟩ := started_ready w hH o id hid readOk fs fs' st h hs hn
  have hown : (env w st).ownId = id := by
    obtain ⟨-, -, -, -, -, -, -, -, hid', -⟩ := C71_started w o id readOk fs fs' st h hs hn
    exact hid'
  have hopen : ∃ σ1, Reach (Step (env w st) o.port) σ σ1 ∧ σ1.client = σ.client ∧ σ1.ours = σ.ours ∧ σ1.listening = some o.port := by
    rcases (kept hr).port with e | e
    · exact ⟨_, .single (.listen hc e), rfl, rfl, rfl⟩
    · exact ⟨σ, .refl, rfl, rfl, e⟩
  obtain ⟨σ1, r1, e1, e2, e3⟩ := hopen
  obtain ⟨hwf, hfit⟩ := bf_fits hready (by rw [htor]; omega)
  have hlen := isHandshake_length hh
  have hacc : (FromIncoming w.v6 ⟨some (ip, port), true, some hello, true, true⟩ (env w st).infohash (env w st).ownId (env w st).s.bf).2 = .ok (MakePeer w.v6 them ip port) := by
    refine (C41_accept_iff_partial _ _ _ _ _ hwf (fun d hd => by cases hd; omega) _).mpr ⟨_, _, _, _, rfl, rfl, rfl, rfl, rfl, ?_, rfl⟩
    rw [hlen, Nat.sub_self, List.replicate_zero, List.append_nil]
    exact hh
  have hans := C41_answer _ _ _ _ _ hwf hfit _ hacc
  obtain ⟨b0, hph⟩ := newHandler hready.run (MakePeer w.v6 them ip port)
  have step := Step.incoming (E := env w st) (port := o.port) (σ := σ1) ⟨some (ip, port), true, some hello, true, true⟩ _ _ (MakePeer w.v6 them ip port) _ σ.client.conns.length true
    (by rw [e1]; exact hc) o.port e3 (Prod.ext hans hacc) hph (show firstMessage true = .ok [wire .unchoke] from rfl)
  refine ⟨_, _, [MakeHandshake st.tor.infohash id], r1.trans (.single step), by simp only [e1]; exact hc, e3, by simp only [e1]; rfl, by simp only [e2], rfl, rfl, rfl, rfl, ?_, _, rfl, ?_⟩
  · rw [hown]; rfl
  · exact (C40_made _ id st.tor.infohash hh.1 hid).1

/-- **C99** is false: somebody who is in the tracker's list twice is connected to twice. -/
theorem C99_refuted_twice (w : World) (hH : ∀ x, (w.H x).length = 20) (o : Options) (id : Bytes) (hid : id.length = 20) (readOk : Bool) (fs fs' : FS.State) (st : Started)
    (h : NewSwarm false w o id readOk fs (.ok st) fs') (hs : Sensible st.tor.info) (hn : st.tor.info.numPieces < 2 ^ 32)
    (htwice : ¬ (st.peers.map Info.str).Nodup) :
    ∃ σ, Reach (Step (env w st) o.port) (begin st) σ ∧ σ.client.crashed = false ∧ ¬ (σ.client.conns.map fun c => c.peer.str).Nodup := by
  obtain ⟨σ, new, r, g1, -, -, -, g5, g6, -, -⟩ := C99_reaches w hH o id hid readOk fs fs' st h hs hn (begin st) rfl
  have hnew : new.map Conn.peer = st.peers := g6
  have hconns : σ.client.conns = new := g5
  refine ⟨σ, r, g1, ?_⟩
  rw [hconns]
  rw [← hnew, List.map_map] at htwice
  exact htwice

theorem failed_kept {E : Env} {port : UInt16} {σ σ' : State} (hr : Reach (Step E port) σ σ') (p : Info) (h : p ∈ σ.failed) : p ∈ σ'.failed := by
  refine Reach.keep (Q := fun s => p ∈ s.failed) ?_ hr h
  intro a b ha hs
  cases hs with
  | fails => exact List.mem_append_left _ ha
  | _ => exact ha

/-- **C99** is false: nobody is tried again.  Each peer that is in the list once may fail to answer when it is called, and then we never connect to it, and never call it, whatever
happens later. -/
theorem C99_refuted_retry (w : World) (o : Options) (st : Started) (l r : List Info) (p : Info) (hp : st.peers = l ++ p :: r) (hl : p ∉ l) (hr : p ∉ r) :
    ∃ σ, Reach (Step (env w st) o.port) (begin st) σ ∧ σ.client.crashed = false ∧ p ∈ σ.failed ∧
      ∀ σ', Reach (Step (env w st) o.port) σ σ' → p ∉ σ'.called ∧ p ∉ σ'.calling ∧ p ∉ σ'.rest := by
  have r1 := spawnAll (E := env w st) (port := o.port) st.peers (begin st) rfl rfl
  have hi : ([] ++ st.peers)[l.length]? = some p := by rw [hp]; simp
  have r2 := Reach.tail _ _ r1 (Step.fails (E := env w st) (port := o.port) l.length p false false _ _ rfl hi rfl)
  refine ⟨_, r2, rfl, by simp, ?_⟩
  intro σ' hr'
  obtain ⟨f1, f2, hf⟩ := List.append_of_mem (failed_kept hr' p (by simp))
  have k := (kept (r2.trans hr')).perm
  rw [hf, hp] at k
  have k' : (p :: (σ'.called ++ (f1 ++ (f2 ++ (σ'.calling ++ σ'.rest))))).Perm (p :: (l ++ r)) := by
    refine .trans ?_ (.trans k List.perm_middle)
    simp only [List.append_assoc, List.cons_append]
    rw [← List.append_assoc, ← List.append_assoc σ'.called f1]
    exact List.perm_middle.symm
  have hmem : ∀ x, x ∈ σ'.called ++ (f1 ++ (f2 ++ (σ'.calling ++ σ'.rest))) → x ≠ p := by
    rintro x hx rfl
    rcases List.mem_append.mp ((List.Perm.cons_inv k').subset hx) with h | h
    · exact hl h
    · exact hr h
  exact ⟨fun hm => hmem p (by simp [hm]) rfl, fun hm => hmem p (by simp [hm]) rfl, fun hm => hmem p (by simp [hm]) rfl⟩

/-- **C99** is false: if the port is taken (another client is running), the process ends with a panic, after it has announced itself to the tracker and has changed the files. -/
theorem C99_refuted_listen (w : World) (o : Options) (st : Started) :
    ∃ σ, Step (env w st) o.port (begin st) σ ∧ σ.client.crashed = true ∧ Stuck (Step (env w st) o.port) σ := by
  refine ⟨_, .listenPanic rfl rfl, rfl, ?_⟩
  intro σ' hs
  cases hs with
  | work _ h _ => exact crashed_stuck rfl _ h
  | spawn _ _ hc | fails _ _ _ _ _ _ hc | connected _ _ _ _ _ _ _ _ _ _ hc | connectPanic _ _ _ _ _ _ hc | listen hc | listenPanic hc
  | incoming _ _ _ _ _ _ _ hc | incomingPanic _ hc => cases hc

/-! ### the hypotheses -/

/-- a tracker that lists the same peer twice, and a third one; hashes have 20 bytes -/
def exWorld2 : World := { exWorld with
  H := fun _ => List.replicate 20 97
  http := fun _ => some (ascii "d8:completei1e10:incompletei2e8:intervali9e5:peers18:\u0001\u0002\u0003\u0004\u0000\u0050\u0001\u0002\u0003\u0004\u0000\u0050\u0001\u0002\u0003\u0004\u0000\u0051e") }

theorem ex_starts2 : ∃ st fs', NewSwarm false exWorld2 exOptions (List.replicate 20 65) true exDisk (.ok st) fs' ∧ Sensible st.tor.info ∧ st.tor.info.numPieces = 1 ∧
    st.tor.info.pieceLen = 4 ∧ NoControl st.tor.announce ∧ exWorld2.parseURL st.tor.announce = some [] ∧ st.tor.info.flist.map Entry.base = [⟨4, ascii "n", ascii "/w/n"⟩] ∧
    st.peers = [MakePeer (fun _ => []) [] (IPv4 1 2 3 4) 80, MakePeer (fun _ => []) [] (IPv4 1 2 3 4) 80, MakePeer (fun _ => []) [] (IPv4 1 2 3 4) 81] := by
  obtain ⟨t0, h1, h2, h3, h4, h5, h6⟩ := ex_loads
  obtain ⟨t, e1, e2, e3⟩ : ∃ t, FromTorrentFile exWorld2.H (some exTorrent) exWorld2.spareFile (ascii "/w") = .ok t ∧ t.announce = t0.announce ∧ t.info = t0.info := by
    obtain ⟨d, infod, g1, g2, g3, g4, -⟩ := fromTorrentFile_ok h1
    exact ⟨_, fromTorrentFile_eq g1 g2 g3 g4 exWorld2.H, rfl, rfl⟩
  have hs : Sensible t.info := by
    rw [e3]
    refine ⟨by rw [h3]; decide, by rw [h3]; decide, ?_, ?_⟩
    · intro e he
      have : e.base ∈ t0.info.flist.map Entry.base := List.mem_map_of_mem he
      rw [h5, List.mem_singleton] at this
      rw [this]
      decide
    · rw [show (fun e : Entry => e.base.localPath) = EntryBase.localPath ∘ Entry.base from rfl, ← List.map_map, h5]
      decide +kernel
  have hc : NoControl t.announce := by rw [e2, h2]; unfold NoControl; decide +kernel
  have hp : exWorld2.parseURL t.announce = some [] := by rw [e2, h2]; decide +kernel
  obtain ⟨raw, q, r1, -⟩ := Tracker.request_values exWorld2.parseURL t (Tracker.NewStats 0 0 0) 7000 (List.replicate 20 65) [] hc hp
  obtain ⟨resp, hr⟩ := Res.isOk_iff (r := Tracker.doRequest exWorld2.v6 exWorld2.parseIP (exWorld2.http []) []) (by decide +kernel)
  have hpeers : (match Tracker.doRequest exWorld2.v6 exWorld2.parseIP (exWorld2.http []) [] with
    | .ok r => decide (r.peers = [MakePeer (fun _ => []) [] (IPv4 1 2 3 4) 80, MakePeer (fun _ => []) [] (IPv4 1 2 3 4) 80, MakePeer (fun _ => []) [] (IPv4 1 2 3 4) 81])
    | _ => false) = true := by decide +kernel
  rw [hr] at hpeers
  simp only [decide_eq_true_eq] at hpeers
  obtain ⟨⟨st, fs', s1, s2⟩, s3⟩ := C71_starts exWorld2 exOptions (List.replicate 20 65) exDisk exTorrent t rfl e1 hs raw r1 resp hr
  have hpe : st.peers = resp.peers := by
    rcases s3 _ _ s1 with ⟨st', g1, -, g3⟩ | ⟨e, g⟩
    · cases g1; exact g3
    · cases g
  exact ⟨st, fs', s1, by rw [s2]; exact hs, by rw [s2, e3]; exact h6, by rw [s2, e3]; exact h3, by rw [s2]; exact hc, by rw [s2]; exact hp, by rw [s2, e3]; exact h5, by rw [hpe]; exact hpeers⟩

/-- the third entry is in the list once -/
example : ∃ (st : Started) (fs' : FS.State) (l : List Info) (p : Info), NewSwarm false exWorld2 exOptions (List.replicate 20 65) true exDisk (.ok st) fs' ∧
    st.peers = l ++ p :: [] ∧ l ≠ [] ∧ p ∉ l := by
  obtain ⟨st, fs', h1, -, -, -, -, -, -, h8⟩ := ex_starts2
  exact ⟨st, fs', [MakePeer (fun _ => []) [] (IPv4 1 2 3 4) 80, MakePeer (fun _ => []) [] (IPv4 1 2 3 4) 80], MakePeer (fun _ => []) [] (IPv4 1 2 3 4) 81, h1, h8, by decide, by decide +kernel⟩

/-- the hypotheses of `C99_guests`: the client has just started, and somebody says hello -/
example : ∃ (st : Started) (fs' : FS.State) (hello : Bytes), NewSwarm false exWorld2 exOptions (List.replicate 20 65) true exDisk (.ok st) fs' ∧ Sensible st.tor.info ∧
    st.tor.info.numPieces < 2 ^ 32 ∧ (begin st).client.crashed = false ∧ HandshakeSpec.IsHandshake hello st.tor.infohash (List.replicate 20 66) := by
  obtain ⟨st, fs', h1, h2, h3, -⟩ := ex_starts2
  have hih := (started_ready exWorld2 (fun _ => List.length_replicate) exOptions (List.replicate 20 65) List.length_replicate true exDisk fs' st h1 h2 (by rw [h3]; decide)).1.ih
  exact ⟨st, fs', _, h1, h2, by rw [h3]; decide, rfl, hih, List.length_replicate, List.replicate 8 0, List.length_replicate, rfl⟩

/-- the three entries are called, and one of the peers asks for a block -/
example : ∃ (st : Started) (fs' : FS.State) (σ : State) (c : Conn), NewSwarm false exWorld2 exOptions (List.replicate 20 65) true exDisk (.ok st) fs' ∧ Sensible st.tor.info ∧
    st.tor.info.numPieces < 2 ^ 32 ∧ ¬ (st.peers.map Info.str).Nodup ∧ Reach (Step (env exWorld2 st) exOptions.port) (begin st) σ ∧ σ.client.crashed = false ∧
    c ∈ σ.client.conns ∧ σ.client.conns.length = 3 ∧ Delivered (prepAll st.tor.info exDisk).flatten st.tor.info.pieceLen.toNat st.tor.info.numPieces c.got [.request 0 1 2] := by
  obtain ⟨st, fs', h1, h2, h3, h4, h5, h6, h9, h7⟩ := ex_starts2
  obtain ⟨σ, new, r, g1, -, -, -, g5, g6, -, g8⟩ := C99_reaches exWorld2 (fun _ => List.length_replicate) exOptions (List.replicate 20 65) List.length_replicate true exDisk fs' st h1 h2 (by rw [h3]; decide) (begin st) rfl
  have hnew : new.map Conn.peer = st.peers := g6
  have hconns : σ.client.conns = new := g5
  have hlen : σ.client.conns.length = 3 := by rw [hconns, ← List.length_map (f := Conn.peer), hnew, h7]; rfl
  obtain ⟨c, hc⟩ : ∃ c, σ.client.conns[0]? = some c := ⟨_, List.getElem?_eq_getElem (by rw [hlen]; decide)⟩
  obtain ⟨c1, c2, c3⟩ := g8 c (by rw [← hconns]; exact List.mem_of_getElem? hc)
  have hdec := decodeAll_stream [.request 0 1 2] (by intro w hw; rw [List.mem_singleton] at hw; subst hw; simp [Decodable]) (by decide)
  have s1 := Step.work (E := env exWorld2 st) (port := exOptions.port) (σ := σ) _ (.receive 0 c _ _ _ g1 hc c1 c2 hdec) (by simp [Client.set])
  refine ⟨st, fs', _, { c with got := c.got ++ [stream [.request 0 1 2]], todo := [Wire.Msg.request 0 1 2].map received }, h1, h2, by rw [h3]; decide, by rw [h7]; decide +kernel, .tail _ _ r s1, g1, ?_, by simpa [Client.set] using hlen, ?_⟩
  · exact List.mem_iff_getElem?.mpr ⟨0, by simp [Client.set, hlen]⟩
  · show Delivered _ _ _ (c.got ++ [stream [.request 0 1 2]]) _
    rw [c3]
    refine Delivered.messages [] [] _ .nothing ?_ (by decide)
    intro w hw
    rw [List.mem_singleton] at hw
    subst hw
    refine ⟨by rw [h3]; decide, ?_⟩
    have hpa : prepAll st.tor.info exDisk = [prepared (old exDisk (ascii "/w/n")) 4] := by
      have : prepAll st.tor.info exDisk = (st.tor.info.flist.map Entry.base).map fun b => prepared (old exDisk b.localPath) b.length.toNat := by rw [List.map_map]; rfl
      rw [this, h9]; rfl
    rw [hpa, h4]
    decide +kernel

end Verif.Start
