import Verif.Props.Peers
import Verif.Props.Seeder
import Verif.Props.Framing
/-
C76: what the next message on a connection leads to, exactly, whatever it is and whatever all peers did before.
-/
set_option autoImplicit false

namespace Verif.Peers
open Verif.P2P Verif.Bf Verif.Files Verif.FileIO Verif.PieceTracker Verif.Layout Verif.Bits Verif.Wire Verif.Avail Verif.Handshake
  Verif.HandshakeSpec Verif.MsgHandler Verif.SessionSpec Verif.PeersSpec Verif.Peer Verif.Session Verif.Lts Verif.Seeder Verif.Framing

/-- `a i` lists the peers (each once) from which a bitfield with piece `i` came and was handled -/
def Counts (σ : Client) (n : Nat) (a : Avail.State) : Prop :=
  ∀ i, i < n → (a i).Nodup ∧ ∀ k, k ∈ a i ↔ ∃ c ∈ σ.conns, c.peer.str = k ∧ InBitfield (c.handled.map Msg.view) i

/-- **C76**, exactly: in every execution, whatever all peers did, the next message of a connection can be handled, and the specification of a seeder (Spec/Seeder.lean) tells what happens:
it is answered, or the connection is given up, or the process crashes.  Nothing of the other connections matters, except how many peers have a piece of which we get to know now that this
peer has it. -/
theorem C76_next_exact {pl : Nat} {hashes : Bytes} {files : List EntryBase} {cs : List Bytes} {E : Env} (h : Ready pl hashes files cs E)
    (hn : E.s.tor.numPieces ≤ 2 ^ 32) (σ₀ σ : Client) (h0 : Initial E σ₀) (hr : Reach (Step E) σ₀ σ) (hc : σ.crashed = false) (i : Nat) (c : Conn)
    (hi : σ.conns[i]? = some c) (hrun : c.recv = .running) (m : P2P.Msg) (ms : List P2P.Msg) (ht : c.todo = m :: ms) :
    ∃ a, Counts σ E.s.tor.numPieces a ∧
    ∀ ok out new o, serveOne cs.flatten pl E.s.tor.numPieces (ours E.s) (full a c.peer.str) ok c.buf m.view = (out, new, o) →
      o ≠ .stuck ∧
      (o = .fine → ∃ σ' c', Step E σ σ' ∧ σ'.crashed = false ∧ σ'.conns = σ.conns.set i c' ∧ c'.recv = .running ∧ c'.out = c.out ++ out.map wire ∧ c'.buf = new ∧
        c'.todo = ms ∧ c'.handled = c.handled ++ [m]) ∧
      (o = .error → ∃ σ' c', Step E σ σ' ∧ σ'.crashed = false ∧ σ'.conns = σ.conns.set i c' ∧ c'.recv = .ended ∧ c'.out = c.out ++ out.map wire) ∧
      (o = .crash → ∃ σ', Step E σ σ' ∧ σ'.crashed = true) := by
  have g := (reach_sound h hn h0 hr).1 hc
  have hmem := List.mem_of_getElem? hi
  have hok := g.conns c hmem
  obtain ⟨hd, hmv⟩ := hok.todo m (by rw [ht]; simp)
  have hrn : Running pl hashes files cs E.s (c.st σ.ppt).buf := h.run.withBuf hok.buf
  obtain ⟨calls, hcr, -⟩ := g.reached
  have hkey := reach_keys h0 hr c hmem
  refine ⟨after calls, fun j hj => ⟨(after_sub (calls.map fun x => x.who.key) calls (fun x hx => List.mem_map_of_mem hx) j).1, fun k => ?_⟩, ?_⟩
  · rw [← hcr.inv.registered j hj k, g.registered j hj k]
    refine exists_congr fun c => and_congr_right fun hm => ?_
    rw [reach_keys h0 hr c hm]
  · intro ok out new o hs
    obtain ⟨st', r, e, q, p, b⟩ := handleOne_serve (st := c.st σ.ppt) hrn calls hcr c.me (full (after calls) c.me.key) rfl (fun _ => ok) m.view hd out new o (by
      rw [hkey]; exact hs)
    rw [← hmv] at e
    have hto := (handled_ok h g hi ht (ok := ok) e).1
    refine ⟨?_, ?_, ?_, ?_⟩
    · rintro rfl
      exact hto q
    · rintro rfl
      rw [show r = .ok () from q] at e
      exact ⟨_, _, .handle i c m ms ok st' hc hi hrun ht e, hc, rfl, hrun, p, (b rfl).1, rfl, rfl⟩
    · rintro rfl
      obtain ⟨er, hq⟩ := q
      rw [hq] at e
      exact ⟨_, _, .handleError i c m ms ok st' er hc hi hrun ht e, hc, rfl, rfl, p⟩
    · rintro rfl
      rw [show r = .panic from q] at e
      exact ⟨_, .handlePanic i c m ms ok st' hc hi hrun ht e, rfl⟩

/-- **C76**: a connection whose messages are handled takes any next buffer, and what is in it (Spec/Framing.lean) tells what happens: these messages are to be handled next, or the process
crashes, or this connection hangs for ever; in no case anything is sent, and nothing of the other connections changes.  There is always such an answer. -/
theorem C76_receive {E : Env} (σ : Client) (hc : σ.crashed = false) (i : Nat) (c : Conn) (hi : σ.conns[i]? = some c) (hrun : c.recv = .running) (ht : c.todo = [])
    (buf : Bytes) (hb : buf.length < 2 ^ 32) :
    (∃ ws e, Reads buf ws e) ∧
    ∀ ws e, Reads buf ws e → ∃ σ' c', Step E σ σ' ∧ σ'.conns = σ.conns.set i c' ∧ σ'.ppt = σ.ppt ∧ c'.got = c.got ++ [buf] ∧ c'.out = c.out ∧ c'.handled = c.handled ∧
      (σ'.crashed = true ↔ e = .crash) ∧ (c'.recv = .hangs ↔ e = .stuck) ∧ (e = .normal → c'.recv = .running ∧ c'.todo = ws.map received) := by
  refine ⟨reads_total buf.length buf (Nat.le_refl _) hb, ?_⟩
  intro ws e h
  cases e with
  | normal =>
    exact ⟨_, _, .receive i c buf _ _ hc hi hrun ht (decode_reads h hb (buf.length + 1) (Nat.lt_succ_self _)), rfl, rfl, rfl, rfl, rfl,
      ⟨fun x => by simp [Client.set, hc] at x, nofun⟩, ⟨fun x => by simp [hrun] at x, nofun⟩, fun _ => ⟨hrun, rfl⟩⟩
  | crash =>
    exact ⟨_, _, .receivePanic i c buf (buf.length + 1) hc hi hrun ht (Verif.P2P.loop_reads buf ws .crash h hb _ [] 0 (Nat.lt_succ_self _)), rfl, rfl, rfl, rfl, rfl,
      ⟨fun _ => rfl, fun _ => rfl⟩, ⟨fun x => by simp [hrun] at x, nofun⟩, nofun⟩
  | stuck =>
    exact ⟨_, _, .receiveHangs i c buf hc hi hrun ht (fun fuel => Verif.P2P.loop_reads buf ws .stuck h hb fuel [] 0), rfl, rfl, rfl, rfl, rfl,
      ⟨fun x => by simp [Client.set, hc] at x, nofun⟩, ⟨fun _ => rfl, fun _ => rfl⟩, nofun⟩

/-- the hypotheses of `C76_receive` -/
example : ∃ (E : Env) (σ : Client) (c : Conn), (∃ σ₀, Initial E σ₀ ∧ Reach (Step E) σ₀ σ) ∧ σ.crashed = false ∧ σ.conns[2]? = some c ∧ c.recv = .running ∧ c.todo = [] := by
  obtain ⟨E, σ₀, σ, c, hE, hlt, hin, hre, hcr, -, -, -, -, -, h0m, hn, hlen, -⟩ := exPeers
  obtain ⟨b1, hp1⟩ := newHandler hE.run (MakePeer (fun _ => []) [] [1, 2, 3, 5] 1)
  have s1 := Step.outgoing (E := E) (σ := σ) (MakePeer (fun _ => []) [] [1, 2, 3, 5] 1) _ _ _ _ 2 true hcr rfl hp1 (show firstMessage true = .ok [wire .unchoke] from rfl)
  exact ⟨E, _, _, ⟨σ₀, hin, .tail _ _ hre s1⟩, hcr, by rw [List.getElem?_append_right (by omega), hlen]; rfl, rfl, rfl⟩

/-- a client with two peers to which a third one sends a request for a piece that does not exist: the whole process crashes -/
example : ∃ (E : Env) (σ₀ σ σ' : Client) (c : Conn) (m : P2P.Msg), Initial E σ₀ ∧ Reach (Step E) σ₀ σ ∧ σ.crashed = false ∧ σ.conns.length = 3 ∧ σ.conns[2]? = some c ∧ c.todo = [m] ∧
    m.view = .request 99 0 1 ∧ Step E σ σ' ∧ σ'.crashed = true := by
  obtain ⟨E, σ₀, σ, c, hE, hlt, hin, hre, hcr, -, -, -, -, -, h0m, hn, hlen, -⟩ := exPeers
  obtain ⟨b1, hp1⟩ := newHandler hE.run (MakePeer (fun _ => []) [] [1, 2, 3, 5] 1)
  have s1 := Step.outgoing (E := E) (σ := σ) (MakePeer (fun _ => []) [] [1, 2, 3, 5] 1) _ _ _ _ 2 true hcr rfl hp1 (show firstMessage true = .ok [wire .unchoke] from rfl)
  generalize hc1 : newConn _ 2 _ _ = c1 at s1
  have r1 : c1.recv = .running ∧ c1.todo = [] := by rw [← hc1]; exact ⟨rfl, rfl⟩
  have hdec := decodeAll_stream [.request 99 0 1] (by intro w hw; rw [List.mem_singleton.mp hw]; trivial) (by decide)
  have hi : (σ.conns ++ [c1])[2]? = some c1 := by
    rw [List.getElem?_append_right (by omega), hlen]; rfl
  have s2 := Step.receive (E := E) (σ := { σ with conns := σ.conns ++ [c1] }) 2 c1 _ _ _ hcr hi r1.1 r1.2 hdec
  generalize hc2 : ({ c1 with got := _, todo := _ } : Conn) = c2 at s2
  have r2 : c2.recv = .running ∧ c2.todo = [received (.request 99 0 1)] := by rw [← hc2]; exact ⟨r1.1, rfl⟩
  have hi2 : ((σ.conns ++ [c1]).set 2 c2)[2]? = some c2 := List.getElem?_set_self (by simp [hlen])
  have hre2 := Reach.tail _ _ (.tail _ _ hre s1) s2
  obtain ⟨a, -, hall⟩ := C76_next_exact hE hlt σ₀ _ hin hre2 hcr 2 c2 hi2 r2.1 _ _ r2.2
  have hnot : (List.range E.s.tor.numPieces).all (ours E.s) = false := by
    rw [hn]
    simp only [List.range, List.range.loop, List.all_cons, h0m, Bool.false_and]
  obtain ⟨-, -, -, h4⟩ := hall true [] c2.buf .crash (by
    rw [view_received]
    simp only [serveOne, hnot]
    rw [hn, if_neg (by decide), if_neg (by decide), if_neg (by decide)])
  obtain ⟨σ', h5, h6⟩ := h4 rfl
  exact ⟨E, σ₀, _, σ', c2, _, hin, hre2, hcr, by simp [Client.set, hlen], hi2, r2.2, view_received _, h5, h6⟩

end Verif.Peers
