import Verif.Props.Peers
import Verif.Props.Fate
import Verif.Props.Peer
import Verif.Spec.Once
import Verif.Spec.Large
import Verif.Lemmas.Lts
/-
Property C98: everybody is counted once.  /repo/src/swarm/piecetracker.go, peer/info.go, swarm/peerhandler.go (FromIncoming, FromBootstrap).
-/
set_option autoImplicit false

namespace Verif.Peers
open Verif.P2P Verif.Bf Verif.Files Verif.FileIO Verif.PieceTracker Verif.Layout Verif.Bits Verif.Wire Verif.Avail Verif.Handshake
  Verif.HandshakeSpec Verif.MsgHandler Verif.SessionSpec Verif.PeersSpec Verif.Peer Verif.Session Verif.Lts Verif.OnceSpec Verif.LargeSpec Verif.Fate

/-- the availability of a piece, as the tracker sees it: the size of the peer set of its node -/
def Availability (t : Tracker) (i n : Nat) : Prop :=
  ∃ (x : Nat) (nd : DS.Node Piece), t.nodes[i]? = some x ∧ t.heap[x]? = some nd ∧ nd.data.peerSet.length = n

theorem availability_iff {size : Nat} {calls : List Call} {t : Tracker} (h : Reached size calls t) {i : Nat} (hi : i < size) (n : Nat) :
    Availability t i n ↔ n = (after calls i).length := by
  obtain ⟨nd, s, -, hg, hd, hk, -, -⟩ := h.inv.deref i hi
  have hl : nd.data.peerSet.length = (after calls i).length := by rw [← hk, List.length_map, hd]
  constructor
  · rintro ⟨x, nd', hx, hg', rfl⟩
    rw [h.inv.node i hi] at hx
    cases hx
    rw [hg] at hg'
    cases hg'
    exact hl
  · rintro rfl
    exact ⟨i, nd, h.inv.node i hi, hg, hl⟩

/-- **C98**, what is counted: in every state of every execution the availability of a piece is the number of different texts (id, address and port)
of the connections on which a bitfield with this piece was handled. -/
theorem C98_counted_partial {pl : Nat} {hashes : Bytes} {files : List EntryBase} {cs : List Bytes} {E : Env} (h : Ready pl hashes files cs E)
    (hn : E.s.tor.numPieces ≤ 2 ^ 32) (σ₀ σ : Client) (h0 : Initial E σ₀) (hr : Reach (Step E) σ₀ σ) (hc : σ.crashed = false)
    (i : Nat) (hi : i < E.s.tor.numPieces) (n : Nat) :
    Availability σ.ppt i n ↔ Number (fun k => ∃ c ∈ σ.conns, c.peer.str = k ∧ InBitfield (c.handled.map Msg.view) i) n := by
  obtain ⟨calls, hreach, -⟩ := ((reach_sound h hn h0 hr).1 hc).reached
  have hnum : Number (fun k => ∃ c ∈ σ.conns, c.peer.str = k ∧ InBitfield (c.handled.map Msg.view) i) (after calls i).length :=
    ⟨after calls i, hreach.inv.nodup i, rfl, fun k => by rw [← hreach.inv.registered i hi, C76_registered h hn σ₀ σ h0 hr hc i hi k]⟩
  rw [availability_iff hreach hi]
  exact ⟨fun e => e ▸ hnum, fun e => number_unique e hnum⟩

/-- a connection sends its bitfield -/
theorem announces {pl : Nat} {hashes : Bytes} {files : List EntryBase} {cs : List Bytes} {E : Env} (h : Ready pl hashes files cs E)
    (h0 : 0 < E.s.tor.numPieces) (hn : E.s.tor.numPieces ≤ 131032) (σ : Client) (calls : List Call) (hr : Reached E.s.tor.numPieces calls σ.ppt) (hc : σ.crashed = false)
    (i : Nat) (c : Conn) (hi : σ.conns[i]? = some c) (e1 : c.recv = .running) (e2 : c.todo = []) (e3 : c.buf.length = pl) (p : Bytes) (held : Nat → Prop)
    (hp : OfPieces E.s.tor.numPieces p held) :
    ∃ σ' c', Reach (Step E) σ σ' ∧ σ'.conns = σ.conns.set i c' ∧ c'.peer = c.peer ∧ c'.me = c.me ∧ c'.got = c.got ++ [wire (.bitfield p)] ∧
      ((σ'.crashed = true ∧ ∃ j, j < E.s.tor.numPieces ∧ held j ∧ c.me.key ∉ after calls j ∧ (after calls j).length = 63) ∨
       (σ'.crashed = false ∧ (∀ j, j < E.s.tor.numPieces → held j → c.me.key ∉ after calls j → (after calls j).length < 63) ∧
        ∃ calls', Reached E.s.tor.numPieces calls' σ'.ppt ∧
        (∀ j, j < E.s.tor.numPieces → held j → c.me.key ∉ after calls j → after calls' j = after calls j ++ [c.me.key]) ∧
        ∀ j, ¬ (j < E.s.tor.numPieces ∧ held j ∧ c.me.key ∉ after calls j) → after calls' j = after calls j)) := by
  obtain ⟨hl, hbits⟩ := hp
  have hne : p ≠ [] := fun e => by rw [e] at hl; simp at hl; omega
  have hwl : (wire (.bitfield p)).length < 2 ^ 32 := by rw [length_wire]; simp [body]; omega
  have hdec := decodeAll_stream [.bitfield p] (by intro w hw; rw [List.mem_singleton.mp hw]; exact hne) (by simpa [stream] using hwl)
  have hst : stream [.bitfield p] = wire (.bitfield p) := by simp [stream]
  rw [hst] at hdec
  have s1 := Step.receive (E := E) (σ := σ) i c _ _ _ hc hi e1 e2 hdec
  obtain ⟨c1, hc1⟩ : ∃ c1, c1 = ({ c with got := c.got ++ [wire (.bitfield p)], todo := [received (.bitfield p)] } : Conn) := ⟨_, rfl⟩
  have s1' : Step E σ (σ.set i c1) := by rw [hc1]; exact s1
  have f1 : c1.recv = .running := by rw [hc1]; exact e1
  have f2 : c1.todo = received (.bitfield p) :: [] := by rw [hc1]
  have f3 : c1.buf.length = pl := by rw [hc1]; exact e3
  have f4 : c1.me = c.me := by rw [hc1]
  have f5 : c1.peer = c.peer := by rw [hc1]
  have f6 : c1.got = c.got ++ [wire (.bitfield p)] := by rw [hc1]
  have hlt : i < σ.conns.length := (List.getElem?_eq_some_iff.mp hi).1
  have hi1 : (σ.set i c1).conns[i]? = some c1 := by simp [Client.set, hlt]
  have hrun : Running pl hashes files cs E.s (c1.st σ.ppt).buf := h.run.withBuf f3
  obtain ⟨k1, k2⟩ := hear_spec hrun c1.me (fun _ => true) ⟨after calls, (c1.st σ.ppt).out.length⟩ ⟨⟨calls, hr, rfl⟩, rfl⟩ (.bitfield p) hne hwl
  rw [f4] at k1 k2
  have hcr : crowded (seen pl E.s) c.me.key p (after calls) = true ↔ ∃ j, j < E.s.tor.numPieces ∧ held j ∧ c.me.key ∉ after calls j ∧ 63 ≤ (after calls j).length := by
    unfold crowded
    rw [List.any_eq_true]
    constructor
    · rintro ⟨j, hj, hx⟩
      simp only [Bool.and_eq_true, decide_eq_true_eq, Bool.not_eq_true', decide_eq_false_iff_not] at hx
      exact ⟨j, List.mem_range.mp hj, ((hbits j).mp hx.1.1).1, hx.1.2, hx.2⟩
    · rintro ⟨j, hj, a, b, d⟩
      refine ⟨j, List.mem_range.mpr hj, ?_⟩
      simp only [Bool.and_eq_true, decide_eq_true_eq, Bool.not_eq_true', decide_eq_false_iff_not]
      exact ⟨⟨(hbits j).mpr ⟨a, hj⟩, b⟩, d⟩
  have hsz : ¬ p.length ≠ ((seen pl E.s).pieces + 7) / 8 := fun hx => hx hl
  cases hh : handleOne E.s c.me (fun _ => true) (received (.bitfield p)) (c1.st σ.ppt) with
  | mk st r =>
  rw [hh] at k1 k2
  by_cases hcw : crowded (seen pl E.s) c.me.key p (after calls) = true
  · simp only [hear, if_neg hsz, hcw, if_true, Result] at k1
    subst k1
    have s2 := Step.handlePanic (E := E) (σ := σ.set i c1) i c1 _ [] true st hc hi1 f1 f2 (by rw [f4]; exact hh)
    refine ⟨_, c1, .tail _ _ (.tail _ _ .refl s1') s2, rfl, f5, f4, f6, .inl ⟨rfl, ?_⟩⟩
    obtain ⟨j, a, b, d, e⟩ := hcr.mp hcw
    exact ⟨j, a, b, d, Nat.le_antisymm (hr.inv.le j) e⟩
  · simp only [hear, if_neg hsz, hcw, Bool.false_eq_true, if_false, Result] at k1 k2
    subst k1
    obtain ⟨-, ⟨calls', g1, g2⟩, -⟩ := k2 trivial
    have s2 := Step.handle (E := E) (σ := σ.set i c1) i c1 _ [] true st hc hi1 f1 f2 (by rw [f4]; exact hh)
    refine ⟨_, { c1.after st with todo := [], handled := c1.handled ++ [received (.bitfield p)] }, .tail _ _ (.tail _ _ .refl s1') s2, ?_, ?_, ?_, ?_, .inr ⟨hc, ?_, calls', g1, ?_, ?_⟩⟩
    · simp [Client.set]
    · exact f5
    · exact f4
    · exact f6
    · intro j a b d
      apply Classical.byContradiction
      intro hx
      exact hcw (hcr.mpr ⟨j, a, b, d, by omega⟩)
    · intro j a b d
      rw [g2]
      exact if_pos ⟨a, (hbits j).mpr ⟨b, a⟩, d⟩
    · intro j hx
      rw [g2]
      refine if_neg fun hy => hx ⟨hy.1, ((hbits j).mp hy.2.1).1, hy.2.2⟩

/-- somebody connects to us -/
theorem comes {pl : Nat} {hashes : Bytes} {files : List EntryBase} {cs : List Bytes} {E : Env} (h : Ready pl hashes files cs E)
    (hn : E.s.tor.numPieces ≤ 2 ^ 32) (σ : Client) (hc : σ.crashed = false) (id : Bytes) (hid : id.length = 20) (ip : IP) (port : UInt16) :
    ∃ c, Step E σ { σ with conns := σ.conns ++ [c] } ∧ c.peer = MakePeer E.v6 id ip port ∧ c.me.key = (MakePeer E.v6 id ip port).str ∧
      c.recv = .running ∧ c.todo = [] ∧ c.got = [] ∧ c.buf.length = pl := by
  obtain ⟨hwf, -⟩ := bf_fits h hn
  have hmade := (C40_made E.infohash id E.infohash h.ih hid).1
  have hlen := isHandshake_length hmade
  have hacc : (FromIncoming E.v6 ⟨some (ip, port), true, some (MakeHandshake E.infohash id), true, true⟩ E.infohash E.ownId E.s.bf).2 =
      .ok (MakePeer E.v6 id ip port) := by
    refine (C41_accept_iff_partial _ _ _ _ _ hwf (fun d hd => by cases hd; omega) _).mpr ⟨_, _, _, _, rfl, rfl, rfl, rfl, rfl, ?_, rfl⟩
    rw [hlen, Nat.sub_self, List.replicate_zero, List.append_nil]
    exact hmade
  obtain ⟨b0, hph⟩ := newHandler h.run (MakePeer E.v6 id ip port)
  exact ⟨_, Step.incoming (E := E) (σ := σ) _ _ _ _ _ σ.conns.length true hc (Prod.ext rfl hacc) hph (show firstMessage true = .ok [wire .unchoke] from rfl),
    rfl, rfl, rfl, rfl, rfl, List.length_replicate⟩

/-- we connect to somebody from the tracker's list, who answers with a handshake -/
theorem called {pl : Nat} {hashes : Bytes} {files : List EntryBase} {cs : List Bytes} {E : Env} (h : Ready pl hashes files cs E)
    (σ : Client) (hc : σ.crashed = false) (ip : IP) (port : UInt16) (hs id : Bytes) (hh : IsHandshake hs E.infohash id) :
    ∃ c, Reach (Step E) σ { σ with conns := σ.conns ++ [c] } ∧ c.peer = MakePeer E.v6 [] ip port ∧ c.me.key = (MakePeer E.v6 [] ip port).str ∧
      c.recv = .running ∧ c.todo = [] ∧ c.got = [hs] ∧ c.buf.length = pl := by
  obtain ⟨b0, hph⟩ := newHandler h.run (MakePeer E.v6 [] ip port)
  have s1 := Step.outgoing (E := E) (σ := σ) _ _ _ _ _ σ.conns.length true hc rfl hph (show firstMessage true = .ok [wire .unchoke] from rfl)
  generalize hc1 : newConn _ _ _ _ = c1 at s1
  have r1 : c1.recv = .running ∧ c1.todo = [] ∧ c1.got = [] ∧ c1.peer = MakePeer E.v6 [] ip port ∧ c1.me.key = (MakePeer E.v6 [] ip port).str ∧ c1.buf.length = pl := by
    rw [← hc1]; exact ⟨rfl, rfl, rfl, rfl, rfl, List.length_replicate⟩
  obtain ⟨n, hd⟩ := decodeAll_handshake hs _ _ hh
  have s2 := Step.receive (E := E) (σ := { σ with conns := σ.conns ++ [c1] }) σ.conns.length c1 _ _ _ hc (by simp) r1.1 r1.2.1 hd
  refine ⟨{ c1 with got := c1.got ++ [hs], todo := [] }, .tail _ _ (.tail _ _ .refl s1) (by simpa [Client.set] using s2), r1.2.2.2.1, r1.2.2.2.2.1, r1.1, rfl, by simp [r1.2.2.1], r1.2.2.2.2.2⟩

/-- a connection is made and on it, after what is in `before`, the bitfield `p` is received, and nothing else -/
def Joins (E : Env) (σ σ' : Client) (who : Info) (before : List Bytes) (p : Bytes) : Prop :=
  Reach (Step E) σ σ' ∧ ∃ c, σ'.conns = σ.conns ++ [c] ∧ c.peer = who ∧ c.got = before ++ [wire (.bitfield p)]

/-- what happens then -/
theorem joins {pl : Nat} {hashes : Bytes} {files : List EntryBase} {cs : List Bytes} {E : Env} (h : Ready pl hashes files cs E)
    (h0 : 0 < E.s.tor.numPieces) (hn : E.s.tor.numPieces ≤ 131032) {σ₀ σ : Client} (hi : Initial E σ₀) (hr : Reach (Step E) σ₀ σ)
    (hc : σ.crashed = false) (who : Info) (hnew : ∀ c ∈ σ.conns, c.peer.str ≠ who.str) (before : List Bytes) (p : Bytes) (held : Nat → Prop)
    (hp : OfPieces E.s.tor.numPieces p held)
    (hstart : ∃ c, Reach (Step E) σ { σ with conns := σ.conns ++ [c] } ∧ c.peer = who ∧ c.me.key = who.str ∧
      c.recv = .running ∧ c.todo = [] ∧ c.got = before ∧ c.buf.length = pl) :
    ∃ σ', Joins E σ σ' who before p ∧
      ((σ'.crashed = true ∧ ∃ j, j < E.s.tor.numPieces ∧ held j ∧ Availability σ.ppt j 63) ∨
       (σ'.crashed = false ∧ ∀ j, j < E.s.tor.numPieces → ∀ n, Availability σ.ppt j n →
          (held j → n < 63 ∧ Availability σ'.ppt j (n + 1)) ∧ (¬ held j → Availability σ'.ppt j n))) := by
  obtain ⟨c, s1, c1, c2, c3, c4, c5, c6⟩ := hstart
  obtain ⟨calls, hreach, -⟩ := ((reach_sound h (by omega) hi hr).1 hc).reached
  have hun : ∀ j, j < E.s.tor.numPieces → c.me.key ∉ after calls j := by
    intro j hj hm
    rw [← hreach.inv.registered j hj, C76_registered h (by omega) σ₀ σ hi hr hc j hj, c2] at hm
    obtain ⟨x, hx, e, -⟩ := hm
    exact hnew x hx e
  obtain ⟨σ', c', r, d1, d2, d3, d4, d5⟩ := announces h h0 hn { σ with conns := σ.conns ++ [c] } calls hreach hc σ.conns.length c (by simp) c3 c4 c6 p held hp
  refine ⟨σ', ⟨Reach.trans s1 r, c', ?_, d2.trans c1, by rw [d4, c5]⟩, ?_⟩
  · rw [d1]; simp
  · rcases d5 with ⟨e1, j, hj, hh, -, hl⟩ | ⟨e1, e2, calls', e3, e4, e5⟩
    · exact .inl ⟨e1, j, hj, hh, (availability_iff hreach hj _).mpr hl.symm⟩
    · refine .inr ⟨e1, fun j hj n ha => ?_⟩
      rw [availability_iff hreach hj] at ha
      subst ha
      constructor
      · intro hh
        refine ⟨e2 j hj hh (hun j hj), (availability_iff e3 hj _).mpr ?_⟩
        rw [e4 j hj hh (hun j hj), List.length_append]; rfl
      · intro hh
        refine (availability_iff e3 hj _).mpr ?_
        rw [e5 j (fun x => hh x.2.1)]

theorem comes' {pl : Nat} {hashes : Bytes} {files : List EntryBase} {cs : List Bytes} {E : Env} (h : Ready pl hashes files cs E)
    (hn : E.s.tor.numPieces ≤ 2 ^ 32) (σ : Client) (hc : σ.crashed = false) (id : Bytes) (hid : id.length = 20) (ip : IP) (port : UInt16) :
    ∃ c, Reach (Step E) σ { σ with conns := σ.conns ++ [c] } ∧ c.peer = MakePeer E.v6 id ip port ∧ c.me.key = (MakePeer E.v6 id ip port).str ∧
      c.recv = .running ∧ c.todo = [] ∧ c.got = [] ∧ c.buf.length = pl :=
  let ⟨c, s, r⟩ := comes h hn σ hc id hid ip port
  ⟨c, .tail _ _ .refl s, r⟩

/-- two that join one after the other -/
theorem join_two {pl : Nat} {hashes : Bytes} {files : List EntryBase} {cs : List Bytes} {E : Env} (h : Ready pl hashes files cs E)
    (h0 : 0 < E.s.tor.numPieces) (hn : E.s.tor.numPieces ≤ 131032) {σ₀ σ : Client} (hi : Initial E σ₀) (hr : Reach (Step E) σ₀ σ)
    (hc : σ.crashed = false) (a b : Info) (hab : a.str ≠ b.str) (hnew : ∀ c ∈ σ.conns, c.peer.str ≠ a.str ∧ c.peer.str ≠ b.str)
    (ba bb : List Bytes) (p : Bytes) (held : Nat → Prop) (hp : OfPieces E.s.tor.numPieces p held)
    (sa : ∀ σ : Client, σ.crashed = false → ∃ c, Reach (Step E) σ { σ with conns := σ.conns ++ [c] } ∧ c.peer = a ∧ c.me.key = a.str ∧
      c.recv = .running ∧ c.todo = [] ∧ c.got = ba ∧ c.buf.length = pl)
    (sb : ∀ σ : Client, σ.crashed = false → ∃ c, Reach (Step E) σ { σ with conns := σ.conns ++ [c] } ∧ c.peer = b ∧ c.me.key = b.str ∧
      c.recv = .running ∧ c.todo = [] ∧ c.got = bb ∧ c.buf.length = pl)
    (hfew : ∀ j n, j < E.s.tor.numPieces → held j → Availability σ.ppt j n → n ≤ 61) :
    ∃ σ₁ σ₂, Joins E σ σ₁ a ba p ∧ Joins E σ₁ σ₂ b bb p ∧ σ₂.crashed = false ∧
      ∀ j n, j < E.s.tor.numPieces → held j → Availability σ.ppt j n → Availability σ₂.ppt j (n + 2) := by
  obtain ⟨σ₁, j1, h1⟩ := joins h h0 hn hi hr hc _ (fun c hm => (hnew c hm).1) _ p held hp (sa σ hc)
  rcases h1 with ⟨-, j, hj, hh, ha⟩ | ⟨hc1, h1⟩
  · have := hfew j 63 hj hh ha; omega
  have hr1 : Reach (Step E) σ₀ σ₁ := Reach.trans hr j1.1
  have hnew1 : ∀ c ∈ σ₁.conns, c.peer.str ≠ b.str := by
    obtain ⟨-, c, e, ec, -⟩ := j1
    rw [e]
    intro x hx
    rcases List.mem_append.mp hx with hx | hx
    · exact (hnew x hx).2
    · rw [List.mem_singleton.mp hx, ec]; exact hab
  obtain ⟨σ₂, j2, h2⟩ := joins h h0 hn hi hr1 hc1 _ hnew1 _ p held hp (sb σ₁ hc1)
  obtain ⟨calls, hreach, -⟩ := ((reach_sound h (by omega) hi hr).1 hc).reached
  have ex : ∀ j, j < E.s.tor.numPieces → ∃ n, Availability σ.ppt j n := fun j hj => ⟨_, (availability_iff hreach hj _).mpr rfl⟩
  rcases h2 with ⟨-, j, hj, hh, ha⟩ | ⟨hc2, h2⟩
  · obtain ⟨n, hav⟩ := ex j hj
    have h3 := ((h1 j hj n hav).1 hh).2
    obtain ⟨calls1, hreach1, -⟩ := ((reach_sound h (by omega) hi hr1).1 hc1).reached
    rw [availability_iff hreach1 hj] at h3 ha
    have := hfew j n hj hh hav
    omega
  · refine ⟨σ₁, σ₂, j1, j2, hc2, fun j n hj hh hav => ?_⟩
    exact ((h2 j hj (n + 1) ((h1 j hj n hav).1 hh).2).1 hh).2

/-- **C98** is false: somebody who comes from two ports is counted twice.  In every state of every execution, with any id (it may be our own), unless a piece gets
too many peers. -/
theorem C98_refuted_twice {pl : Nat} {hashes : Bytes} {files : List EntryBase} {cs : List Bytes} {E : Env} (h : Ready pl hashes files cs E)
    (h0 : 0 < E.s.tor.numPieces) (hn : E.s.tor.numPieces ≤ 131032) (σ₀ σ : Client) (hi : Initial E σ₀) (hr : Reach (Step E) σ₀ σ)
    (hc : σ.crashed = false) (id : Bytes) (hid : id.length = 20) (ip : IP) (q : UInt8 × UInt8 × UInt8 × UInt8) (hip : IsIPv4 ip q) (port port' : UInt16) (hport : port ≠ port')
    (hnew : ∀ c ∈ σ.conns, c.peer.str ≠ (MakePeer E.v6 id ip port).str ∧ c.peer.str ≠ (MakePeer E.v6 id ip port').str)
    (p : Bytes) (held : Nat → Prop) (hp : OfPieces E.s.tor.numPieces p held)
    (hfew : ∀ j n, j < E.s.tor.numPieces → held j → Availability σ.ppt j n → n ≤ 61) :
    ∃ σ₁ σ₂, Joins E σ σ₁ (MakePeer E.v6 id ip port) [] p ∧ Joins E σ₁ σ₂ (MakePeer E.v6 id ip port') [] p ∧ σ₂.crashed = false ∧
      ∀ j n, j < E.s.tor.numPieces → held j → Availability σ.ppt j n → Availability σ₂.ppt j (n + 2) :=
  join_two h h0 hn hi hr hc _ _ (fun e => hport ((C61_key_injective _ _ _ _ _ _ _ q q hip hip).mp e).2.2) hnew [] [] p held hp
    (fun σ hc => comes' h (by omega) σ hc id hid ip port) (fun σ hc => comes' h (by omega) σ hc id hid ip port') hfew

/-- **C98** is false for peers that only do what the protocol asks for: one that is in the tracker's list, so that we connect to it, and that connects to us as well,
is counted twice, also if it has the same port on both sides. -/
theorem C98_refuted_both_ways {pl : Nat} {hashes : Bytes} {files : List EntryBase} {cs : List Bytes} {E : Env} (h : Ready pl hashes files cs E)
    (h0 : 0 < E.s.tor.numPieces) (hn : E.s.tor.numPieces ≤ 131032) (σ₀ σ : Client) (hi : Initial E σ₀) (hr : Reach (Step E) σ₀ σ)
    (hc : σ.crashed = false) (id : Bytes) (hid : id.length = 20) (hs : Bytes) (hh : IsHandshake hs E.infohash id)
    (ip ip' : IP) (q : UInt8 × UInt8 × UInt8 × UInt8) (hip : IsIPv4 ip q) (hip' : IsIPv4 ip' q) (port port' : UInt16)
    (hnew : ∀ c ∈ σ.conns, c.peer.str ≠ (MakePeer E.v6 [] ip port).str ∧ c.peer.str ≠ (MakePeer E.v6 id ip' port').str)
    (p : Bytes) (held : Nat → Prop) (hp : OfPieces E.s.tor.numPieces p held)
    (hfew : ∀ j n, j < E.s.tor.numPieces → held j → Availability σ.ppt j n → n ≤ 61) :
    ∃ σ₁ σ₂, Joins E σ σ₁ (MakePeer E.v6 [] ip port) [hs] p ∧ Joins E σ₁ σ₂ (MakePeer E.v6 id ip' port') [] p ∧ σ₂.crashed = false ∧
      ∀ j n, j < E.s.tor.numPieces → held j → Availability σ.ppt j n → Availability σ₂.ppt j (n + 2) :=
  join_two h h0 hn hi hr hc _ _ (fun e => by have := ((C61_key_injective _ _ _ _ _ _ _ q q hip hip').mp e).1; rw [← this] at hid; cases hid) hnew [hs] [] p held hp
    (fun σ hc => called h σ hc ip port hs id hh) (fun σ hc => comes' h (by omega) σ hc id hid ip' port') hfew

/-- connections of one participant from ports from `k` on -/
theorem pile {pl : Nat} {hashes : Bytes} {files : List EntryBase} {cs : List Bytes} {E : Env} (h : Ready pl hashes files cs E)
    (h0 : 0 < E.s.tor.numPieces) (hn : E.s.tor.numPieces ≤ 131032) {σ₀ : Client} (hi : Initial E σ₀) (id : Bytes) (hid : id.length = 20) (ip : IP)
    (q : UInt8 × UInt8 × UInt8 × UInt8) (hip : IsIPv4 ip q) (p : Bytes) (held : Nat → Prop) (hp : OfPieces E.s.tor.numPieces p held) (j : Nat) (hj : j < E.s.tor.numPieces) (hh : held j)
    (m : Nat) : ∀ (σ : Client) (k : Nat), Reach (Step E) σ₀ σ → σ.crashed = false → k + m ≤ 63 → Availability σ.ppt j (63 - m) →
    (∀ c ∈ σ.conns, ∀ port : UInt16, k ≤ port.toNat → c.peer.str ≠ (MakePeer E.v6 id ip port).str) →
    ∃ σ' new, Reach (Step E) σ σ' ∧ σ'.crashed = true ∧ σ'.conns = σ.conns ++ new ∧ new.length ≤ m + 1 ∧
      ∀ c ∈ new, (∃ port, c.peer = MakePeer E.v6 id ip port) ∧ c.got = [wire (.bitfield p)] := by
  induction m with
  | zero =>
    intro σ k hr hc hk hav hnew
    obtain ⟨σ', ⟨r, c, e1, e2, e3⟩, h1⟩ := joins h h0 hn hi hr hc (MakePeer E.v6 id ip 63) (fun c hm => hnew c hm 63 (by simpa using hk)) [] p held hp
      (comes' h (by omega) σ hc id hid ip 63)
    rcases h1 with ⟨hcr, -⟩ | ⟨-, h1⟩
    · exact ⟨σ', [c], r, hcr, e1, by simp, fun x hx => by rw [List.mem_singleton.mp hx]; exact ⟨⟨63, e2⟩, e3⟩⟩
    · have := ((h1 j hj 63 hav).1 hh).1
      omega
  | succ m ih =>
    intro σ k hr hc hk hav hnew
    have hkp : (UInt16.ofNat k).toNat = k := by simp; omega
    obtain ⟨σ', jn, h1⟩ := joins h h0 hn hi hr hc (MakePeer E.v6 id ip (UInt16.ofNat k)) (fun c hm => hnew c hm _ (by omega)) [] p held hp
      (comes' h (by omega) σ hc id hid ip (UInt16.ofNat k))
    obtain ⟨r, c, e1, e2, e3⟩ := jn
    rcases h1 with ⟨hcr, -⟩ | ⟨hc1, h1⟩
    · exact ⟨σ', [c], r, hcr, e1, by simp, fun x hx => by rw [List.mem_singleton.mp hx]; exact ⟨⟨_, e2⟩, e3⟩⟩
    · have h2 := ((h1 j hj _ hav).1 hh).2
      obtain ⟨σ2, new, r2, g1, g2, g3, g4⟩ := ih σ' (k + 1) (Reach.trans hr r) hc1 (by omega) (by rw [show 63 - m = 63 - (m + 1) + 1 by omega]; exact h2) (by
        rw [e1]
        intro x hx port hport
        rcases List.mem_append.mp hx with hx | hx
        · exact hnew x hx port (by omega)
        · rw [List.mem_singleton.mp hx, e2]
          intro e
          have := ((C61_key_injective _ _ _ _ _ _ _ q q hip hip).mp e).2.2
          rw [← this, hkp] at hport
          omega)
      refine ⟨σ2, c :: new, Reach.trans r r2, g1, by rw [g2, e1, List.append_assoc]; rfl, by simp; omega, ?_⟩
      intro x hx
      rcases List.mem_cons.mp hx with rfl | hx
      · exact ⟨⟨_, e2⟩, e3⟩
      · exact g4 x hx

/-- **C98** is false, and this can end the process: in every state of every execution somebody who has not been here before can do so with at most 64 connections from one
address, with one id, by sending nothing but a correct bitfield on each. -/
theorem C98_refuted_crash {pl : Nat} {hashes : Bytes} {files : List EntryBase} {cs : List Bytes} {E : Env} (h : Ready pl hashes files cs E)
    (h0 : 0 < E.s.tor.numPieces) (hn : E.s.tor.numPieces ≤ 131032) (σ₀ σ : Client) (hi : Initial E σ₀) (hr : Reach (Step E) σ₀ σ)
    (hc : σ.crashed = false) (id : Bytes) (hid : id.length = 20) (ip : IP) (q : UInt8 × UInt8 × UInt8 × UInt8) (hip : IsIPv4 ip q)
    (hnew : ∀ c ∈ σ.conns, ∀ port, c.peer.str ≠ (MakePeer E.v6 id ip port).str)
    (p : Bytes) (held : Nat → Prop) (hp : OfPieces E.s.tor.numPieces p held) (hone : ∃ j, j < E.s.tor.numPieces ∧ held j) :
    ∃ σ' new, Reach (Step E) σ σ' ∧ σ'.crashed = true ∧ σ'.conns = σ.conns ++ new ∧ new.length ≤ 64 ∧
      ∀ c ∈ new, (∃ port, c.peer = MakePeer E.v6 id ip port) ∧ c.got = [wire (.bitfield p)] := by
  obtain ⟨j, hj, hh⟩ := hone
  obtain ⟨calls, hreach, -⟩ := ((reach_sound h (by omega) hi hr).1 hc).reached
  have hle := hreach.inv.le j
  obtain ⟨σ', new, r, g1, g2, g3, g4⟩ := pile h h0 hn hi id hid ip q hip p held hp j hj hh (63 - (after calls j).length) σ 0 hr hc (by omega)
    ((availability_iff hreach hj _).mpr (by omega)) (fun c hm port _ => hnew c hm port)
  exact ⟨σ', new, r, g1, g2, by omega, g4⟩

/-- **C98** is false: the client counts itself.  A connection whose handshake has our own id (we get one if our own address is in the tracker's list) is accepted, and what it
announces is counted. -/
theorem C98_refuted_self {pl : Nat} {hashes : Bytes} {files : List EntryBase} {cs : List Bytes} {E : Env} (h : Ready pl hashes files cs E)
    (h0 : 0 < E.s.tor.numPieces) (hn : E.s.tor.numPieces ≤ 131032) (σ₀ σ : Client) (hi : Initial E σ₀) (hr : Reach (Step E) σ₀ σ)
    (hc : σ.crashed = false) (ip : IP) (port : UInt16) (hnew : ∀ c ∈ σ.conns, c.peer.str ≠ (MakePeer E.v6 E.ownId ip port).str)
    (p : Bytes) (held : Nat → Prop) (hp : OfPieces E.s.tor.numPieces p held)
    (hfew : ∀ j n, j < E.s.tor.numPieces → held j → Availability σ.ppt j n → n ≤ 62) :
    ∃ σ', Joins E σ σ' (MakePeer E.v6 E.ownId ip port) [] p ∧ σ'.crashed = false ∧
      ∀ j n, j < E.s.tor.numPieces → held j → Availability σ.ppt j n → Availability σ'.ppt j (n + 1) := by
  obtain ⟨σ', jn, h1⟩ := joins h h0 hn hi hr hc _ hnew [] p held hp (comes' h (by omega) σ hc E.ownId h.own ip port)
  rcases h1 with ⟨-, j, hj, hh, ha⟩ | ⟨hc1, h1⟩
  · have := hfew j 63 hj hh ha; omega
  · exact ⟨σ', jn, hc1, fun j n hj hh ha => ((h1 j hj n ha).1 hh).2⟩

/-- as many things on the one side as on the other -/
theorem number_of {α β γ : Type} {l : List γ} (f : γ → α) (g : γ → β) (P : γ → Prop) (hfg : ∀ x ∈ l, P x → ∀ y ∈ l, P y → (f x = f y ↔ g x = g y)) {n : Nat}
    (h : Number (fun a => ∃ x ∈ l, f x = a ∧ P x) n) : Number (fun b => ∃ x ∈ l, g x = b ∧ P x) n := by
  obtain ⟨as, hnd, hlen, hall⟩ := h
  have pick : ∀ as : List α, as.Nodup → (∀ a ∈ as, ∃ x ∈ l, f x = a ∧ P x) →
      ∃ xs : List γ, xs.map f = as ∧ (∀ x ∈ xs, x ∈ l ∧ P x) ∧ (xs.map g).Nodup := by
    intro as
    induction as with
    | nil => intro _ _; exact ⟨[], rfl, nofun, .nil⟩
    | cons a as ih =>
      intro hnd hex
      rw [List.nodup_cons] at hnd
      obtain ⟨xs, e, hx, hg⟩ := ih hnd.2 (fun b hb => hex b (by simp [hb]))
      obtain ⟨x, hxl, hfx, hPx⟩ := hex a (by simp)
      refine ⟨x :: xs, by simp [e, hfx], ?_, ?_⟩
      · intro y hy
        rcases List.mem_cons.mp hy with rfl | hy
        · exact ⟨hxl, hPx⟩
        · exact hx y hy
      · rw [List.map_cons, List.nodup_cons]
        refine ⟨?_, hg⟩
        intro hm
        obtain ⟨y, hy, e'⟩ := List.mem_map.mp hm
        obtain ⟨hyl, hPy⟩ := hx y hy
        have := (hfg y hyl hPy x hxl hPx).mpr e'
        apply hnd.1
        rw [← e, ← hfx, ← this]
        exact List.mem_map_of_mem hy
  obtain ⟨xs, e, hx, hg⟩ := pick as hnd (fun a ha => (hall a).mp ha)
  refine ⟨xs.map g, hg, by rw [List.length_map, ← hlen, ← e, List.length_map], fun b => ?_⟩
  constructor
  · intro hb
    obtain ⟨x, hxm, rfl⟩ := List.mem_map.mp hb
    exact ⟨x, (hx x hxm).1, rfl, (hx x hxm).2⟩
  · rintro ⟨x, hxl, rfl, hPx⟩
    have : f x ∈ xs.map f := by rw [e]; exact (hall _).mpr ⟨x, hxl, rfl, hPx⟩
    obtain ⟨y, hy, e'⟩ := List.mem_map.mp this
    obtain ⟨hyl, hPy⟩ := hx y hy
    rw [← (hfg y hyl hPy x hxl hPx).mp e']
    exact List.mem_map_of_mem hy

/-- **C98** (partial: everybody keeps to one id, address and port).  Whoever is behind the connections: if two connections that announced the piece have the same
text precisely if they are of the same participant, the availability of the piece is the number of participants that announced it. -/
theorem C98_once_partial {Who : Type} {pl : Nat} {hashes : Bytes} {files : List EntryBase} {cs : List Bytes} {E : Env} (h : Ready pl hashes files cs E)
    (hn : E.s.tor.numPieces ≤ 2 ^ 32) (σ₀ σ : Client) (h0 : Initial E σ₀) (hr : Reach (Step E) σ₀ σ) (hc : σ.crashed = false)
    (i : Nat) (hi : i < E.s.tor.numPieces) (who : Conn → Who)
    (hwho : ∀ c ∈ σ.conns, InBitfield (c.handled.map Msg.view) i → ∀ d ∈ σ.conns, InBitfield (d.handled.map Msg.view) i → (who c = who d ↔ c.peer.str = d.peer.str))
    (n : Nat) :
    Availability σ.ppt i n ↔ Number (fun w => ∃ c ∈ σ.conns, who c = w ∧ InBitfield (c.handled.map Msg.view) i) n := by
  rw [C98_counted_partial h hn σ₀ σ h0 hr hc i hi n]
  exact ⟨number_of _ _ _ fun c hm hb d hm' hb' => (hwho c hm hb d hm' hb').symm, number_of _ _ _ hwho⟩

theorem le_of_all {α : Type} : ∀ {k l : List α}, l.Nodup → (∀ x ∈ l, x ∈ k) → l.length ≤ k.length := by
  intro k
  induction k with
  | nil =>
    intro l _ h
    cases l with
    | nil => exact Nat.le_refl _
    | cons x l => exact absurd (h x (by simp)) (by simp)
  | cons y k ih =>
    intro l hl h
    open Classical in
    have h1 : (l.erase y).length ≤ k.length := ih (hl.erase y) fun x hx => by
      have := (hl.mem_erase_iff).mp hx
      rcases List.mem_cons.mp (h x this.2) with e | e
      · exact absurd e this.1
      · exact e
    open Classical in
    have h2 : l.length ≤ (l.erase y).length + 1 := by rw [List.length_erase]; split <;> omega
    simp only [List.length_cons]
    omega

theorem number_le {α β γ : Type} {l : List γ} (f : γ → α) (g : γ → β) (P : γ → Prop) (hfg : ∀ x ∈ l, P x → ∀ y ∈ l, P y → f x = f y → g x = g y) {n m : Nat}
    (h : Number (fun a => ∃ x ∈ l, f x = a ∧ P x) n) (h' : Number (fun b => ∃ x ∈ l, g x = b ∧ P x) m) :
    m ≤ n ∧ (n = m ↔ ∀ x ∈ l, P x → ∀ y ∈ l, P y → g x = g y → f x = f y) := by
  obtain ⟨as, hnd, hlen, hall⟩ := h
  obtain ⟨bs, hnd', hlen', hall'⟩ := h'
  have pick : ∀ as : List α, (∀ a ∈ as, ∃ x ∈ l, f x = a ∧ P x) → ∃ xs : List γ, xs.map f = as ∧ ∀ x ∈ xs, x ∈ l ∧ P x := by
    intro as
    induction as with
    | nil => intro _; exact ⟨[], rfl, nofun⟩
    | cons a as ih =>
      intro ha
      obtain ⟨x, h1, h2, h3⟩ := ha a (by simp)
      obtain ⟨xs, h4, h5⟩ := ih fun b hb => ha b (by simp [hb])
      refine ⟨x :: xs, by simp [h2, h4], fun y hy => ?_⟩
      rcases List.mem_cons.mp hy with rfl | hy
      · exact ⟨h1, h3⟩
      · exact h5 y hy
  have some_of : ∀ as' : List α, (∀ a ∈ as', a ∈ as) → (∀ x ∈ l, P x → ∃ y ∈ l, P y ∧ g y = g x ∧ f y ∈ as') → m ≤ as'.length := by
    intro as' h1 h2
    obtain ⟨xs, e, hxs⟩ := pick as' fun a ha => (hall a).mp (h1 a ha)
    have : bs.length ≤ (xs.map g).length := by
      refine le_of_all hnd' fun b hb => ?_
      obtain ⟨x, k1, rfl, k2⟩ := (hall' b).mp hb
      obtain ⟨y, k3, k4, k5, k6⟩ := h2 x k1 k2
      rw [← e] at k6
      obtain ⟨z, k7, k8⟩ := List.mem_map.mp k6
      exact List.mem_map.mpr ⟨z, k7, (hfg z (hxs z k7).1 (hxs z k7).2 y k3 k4 k8).trans k5⟩
    rw [List.length_map] at this
    rw [← e, List.length_map]
    omega
  refine ⟨?_, ?_, ?_⟩
  · rw [← hlen]
    exact some_of as (fun _ h => h) fun x h1 h2 => ⟨x, h1, h2, rfl, (hall _).mpr ⟨x, h1, rfl, h2⟩⟩
  · intro e x hx px y hy py hg
    refine Classical.byContradiction fun hf => ?_
    open Classical in
    have h1 : m ≤ (as.erase (f x)).length := by
      refine some_of _ (fun a ha => List.mem_of_mem_erase ha) fun z hz pz => ?_
      by_cases hzx : f z = f x
      · exact ⟨y, hy, py, (hg.symm).trans (hfg x hx px z hz pz hzx.symm), (hnd.mem_erase_iff).mpr ⟨fun e => hf e.symm, (hall _).mpr ⟨y, hy, rfl, py⟩⟩⟩
      · exact ⟨z, hz, pz, rfl, (hnd.mem_erase_iff).mpr ⟨hzx, (hall _).mpr ⟨z, hz, rfl, pz⟩⟩⟩
    open Classical in
    have h2 : (as.erase (f x)).length = as.length - 1 := List.length_erase_of_mem ((hall _).mpr ⟨x, hx, rfl, px⟩)
    have h3 : 0 < as.length := List.length_pos_of_mem ((hall (f x)).mpr ⟨x, hx, rfl, px⟩)
    omega
  · intro h
    exact number_unique (number_of f g P (fun x hx px y hy py => ⟨hfg x hx px y hy py, h x hx px y hy py⟩) ⟨as, hnd, hlen, hall⟩) ⟨bs, hnd', hlen', hall'⟩

/-- **C98**, exactly when it holds: whoever is behind the connections, as long as no two participants share a text (id, address and port), the availability of a piece is at least the number of
participants that announced it, and it is that number exactly if each of them has used one text only. -/
theorem C98_once_iff_partial {Who : Type} {pl : Nat} {hashes : Bytes} {files : List EntryBase} {cs : List Bytes} {E : Env} (h : Ready pl hashes files cs E)
    (hn : E.s.tor.numPieces ≤ 2 ^ 32) (σ₀ σ : Client) (h0 : Initial E σ₀) (hr : Reach (Step E) σ₀ σ) (hc : σ.crashed = false)
    (i : Nat) (hi : i < E.s.tor.numPieces) (who : Conn → Who)
    (hwho : ∀ c ∈ σ.conns, InBitfield (c.handled.map Msg.view) i → ∀ d ∈ σ.conns, InBitfield (d.handled.map Msg.view) i → c.peer.str = d.peer.str → who c = who d)
    (n m : Nat) (ha : Availability σ.ppt i n) (hm : Number (fun w => ∃ c ∈ σ.conns, who c = w ∧ InBitfield (c.handled.map Msg.view) i) m) :
    m ≤ n ∧ (n = m ↔ ∀ c ∈ σ.conns, InBitfield (c.handled.map Msg.view) i → ∀ d ∈ σ.conns, InBitfield (d.handled.map Msg.view) i → who c = who d → c.peer.str = d.peer.str) :=
  number_le (fun c : Conn => c.peer.str) who _ hwho ((C98_counted_partial h hn σ₀ σ h0 hr hc i hi n).mp ha) hm

/-! ### the hypotheses -/

/-- one piece announced by one of two peers; then somebody comes twice -/
example : ∃ (E : Env) (σ₀ σ : Client) (c : Conn), Ready 4 exHashes exFiles [[1, 2, 3, 4, 5], [], [6, 7, 8, 9, 10, 11, 12, 13]] E ∧ 0 < E.s.tor.numPieces ∧ E.s.tor.numPieces ≤ 131032 ∧
    Initial E σ₀ ∧ Reach (Step E) σ₀ σ ∧ σ.crashed = false ∧ c ∈ σ.conns ∧ InBitfield (c.handled.map Msg.view) 0 ∧ OfPieces E.s.tor.numPieces [0xf0] (fun _ => True) := by
  obtain ⟨E, σ₀, σ, c, h1, h2, h3, h4, h5, h6, -, -, h8, -, -, h9, -, -, h10⟩ := exPeers
  refine ⟨E, σ₀, σ, c, h1, by rw [h9]; decide, by rw [h9]; decide, h3, h4, h5, h6, ?_, by rw [h9]; decide, ?_⟩
  · obtain ⟨_, done, rest, -, e1, e2, -, e3, -⟩ := C76_served_partial h1 h2 σ₀ σ h3 h4 h5 c h6 _ h10
    rw [e3 h8, List.append_nil] at e1
    subst e1
    rw [e2]
    exact ⟨[0x80], by simp [view_received], by decide⟩
  · intro i
    rw [h9]
    by_cases hi : i < 8
    · have : ∀ i, i < 8 → (bit [0xf0] i = true ↔ True ∧ i < 4) := by decide
      exact this i hi
    · have : bit [0xf0] i = false := by
        unfold bit
        rw [List.getElem?_eq_none (by simp; omega)]
      rw [this]
      simp; omega

end Verif.Peers
