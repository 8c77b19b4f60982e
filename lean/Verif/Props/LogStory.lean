import Verif.Props.Log
import Verif.Lemmas.LogStory
/-
C110: whether the log tells what happened.
-/
set_option autoImplicit false

namespace Verif.Log
open Verif.P2P Verif.Wire Verif.Peer Verif.Handshake Verif.Bencode Verif.Bencode.Spec Verif.ShowSpec Verif.LogSpec Verif.Lts Verif.Show Verif.Startup Verif.Layout Verif.Bits

/-- all that is known about one connection and its log -/
structure StoryInv (E : Env) (es : List Entry) (c : Conn) : Prop where
  early : Early c
  order : OrderInv c es
  before : InInv c (of .before es) ∧ (∃ r, .newClient r ∈ es) ∨ OutInv c (of .before es) ∧ (∀ r, .newClient r ∉ es)
  main : MainInv E c (of .main es)
  ping : PingInv c (of .ping es)
  recv : RecvInv c (of .recv es)
  req : ReqInv c (of .req es)
  reader : ReaderInv c (of .reader es)

theorem story {E : Env} {first es : List Entry} {c0 c : Conn} (hb : Birth E first c0) (hr : CRun E c0 es c) : StoryInv E (first ++ es) c := by
  induction hr with
  | nil =>
    cases hb with
    | outgoing id ip port =>
      exact ⟨⟨fun _ => rfl, fun _ => ⟨rfl, rfl, rfl⟩⟩, ⟨rfl, fun _ => ⟨rfl, by simp⟩⟩, .inr ⟨⟨rfl, rfl, rfl⟩, by simp⟩, rfl, ⟨rfl, rfl, rfl⟩, ⟨rfl, rfl, rfl⟩, rfl, rfl⟩
    | accepted ip port =>
      exact ⟨⟨fun _ => rfl, fun _ => ⟨rfl, rfl, rfl⟩⟩, ⟨rfl, fun _ => ⟨rfl, by simp [part]⟩⟩, .inl ⟨⟨rfl, rfl, rfl⟩, _, List.mem_cons_self ..⟩, rfl, ⟨rfl, rfl, rfl⟩,
        ⟨rfl, rfl, rfl⟩, rfl, rfl⟩
  | snoc es es' c c' _ hs ih =>
    rw [← List.append_assoc]
    obtain ⟨i1, i2, i3, i4, i5, i6, i7, i8⟩ := ih
    refine ⟨early_step i1 hs, order_step i1 hs i2, ?_, ?_, ?_, ?_, ?_, ?_⟩
    · rcases i3 with ⟨i3, r, hm⟩ | ⟨i3, hm⟩
      · exact .inl ⟨by rw [of_append]; exact in_step hs _ i3, r, List.mem_append_left _ hm⟩
      · refine .inr ⟨by rw [of_append]; exact out_step hs _ i3, fun r hr => ?_⟩
        rcases List.mem_append.mp hr with hr | hr
        · exact hm r hr
        · exact not_newClient_step hs r hr
    · rw [of_append]; exact main_step i1 hs _ i4
    · rw [of_append]; exact ping_step i1 hs _ i5
    · rw [of_append]; exact recv_step i1 hs _ i6
    · rw [of_append]; exact req_step i1 hs _ i7
    · rw [of_append]; exact reader_step hs _ i8

theorem story_of {E : Env} {input announce : Bytes} {start : List Entry} {σ₀ σ : State} (h0 : Initial start σ₀)
    (hst : ∀ e ∈ start, strs e = [] ∧ addrs e = [] ∧ (∀ s ∈ given e, s = input ∨ s = announce)) (hr : Reach (Step E) σ₀ σ) {i : Nat} {c : Conn} (hi : σ.conns[i]? = some c) :
    StoryInv E (own σ i) c := by
  obtain ⟨first, c0, es, hb, hrun, ho⟩ := (project h0 hst hr).2 i c hi
  rw [ho]
  exact story hb hrun

/-- **C110**: what the log says about one connection is a story.  It begins with what was said before `Loop`: a connection that was accepted is announced, its handshake is good, ours is
sent, our bitfield is sent, or some of this until it is given up with an error; about a connection that we make nothing is said, except that it failed.  Behind that each goroutine
says that it starts, what it does, and that it ends, in this order; `Loop` says that the first message could not be sent, then that the connection is killed, then that it is done. -/
theorem C110_story (sp : Bool) (w : World) (o : Options) (id : Bytes) (readOk : Bool) (pc : Bytes) (fs fs' : FS.State) (st : Started) (es : List Entry)
    (h : Starts sp w o id readOk pc fs (.ok st) fs' es) (E : Env) (σ₀ σ : State) (h0 : Initial es σ₀) (hr : Reach (Step E) σ₀ σ) (i : Nat) (c : Conn) (hi : σ.conns[i]? = some c) :
    own σ i = said σ i .before ++ (own σ i).filter (fun e => part e != .before) ∧
    ((∃ k, k ≤ 4 ∧ said σ i .before = (greeting c.remote).take k) ∨ (∃ k e, 1 ≤ k ∧ k ≤ 3 ∧ said σ i .before = (greeting c.remote).take k ++ [.refused e]) ∨
      ∃ e, said σ i .before = [.noBootstrap c.info.addr e]) ∧
    ((∃ e ∈ own σ i, part e ≠ .before) → said σ i .before = [] ∨ said σ i .before = greeting c.remote) ∧
    (∃ e, said σ i .main <+: [.killing c.info.str e, .done c.info.addr] ∨ ∃ e', said σ i .main <+: [.unchokeError e', .killing c.info.str e, .done c.info.addr]) ∧
    (∃ n lost, said σ i .ping <+: pingStory c.info.addr c.info.str n lost) ∧
    (said σ i .recv = [] ∨ ∃ body, (∀ e ∈ body, (∃ read len pc, e = .decoded read len pc c.info.addr) ∨ e = .registered) ∧
      said σ i .recv <+: .recvStart c.info.str :: (body ++ [.recvEnd c.info.str])) ∧
    said σ i .req <+: [.reqStart c.info.str, .reqEnd c.info.str] ∧
    said σ i .reader <+: [.readStart c.remote, .readEnd c.remote] := by
  obtain ⟨he, -⟩ := started_log h
  subst he
  have S := story_of (start := _) h0 start_texts hr hi
  obtain ⟨i1, ⟨i2, i2'⟩, i3, i4, i5, i6, i7, i8⟩ := S
  have hof : ∀ p, of p (own σ i) = said σ i p := fun _ => rfl
  rw [hof] at i2 i3 i4 i5 i6 i7 i8
  refine ⟨i2, ?_, ?_, ?_, ?_, ?_, ?_, ?_⟩
  · rcases i3 with ⟨i3, -⟩ | ⟨i3, -⟩
    · unfold InInv at i3
      split at i3
      · exact i3.elim
      · exact .inl ⟨1, by omega, i3.1⟩
      · exact .inl ⟨2, by omega, i3.1⟩
      · exact .inl ⟨3, by omega, i3.1⟩
      · obtain ⟨k, e, k1, k2, k3, -⟩ := i3
        exact .inr (.inl ⟨k, e, k1, k2, k3⟩)
      · exact .inl ⟨4, by omega, i3.1⟩
    · unfold OutInv at i3
      split at i3
      · exact .inl ⟨0, by omega, i3.1⟩
      · obtain ⟨⟨e, k⟩, -⟩ := i3
        exact .inr (.inr ⟨e, k⟩)
      · exact .inl ⟨0, by omega, i3.1⟩
      · exact i3.elim
  · rintro ⟨e, hm, hp⟩
    have hnb : c.main ≠ .begin := fun hb => hp ((i2' hb).2 e hm)
    have hloop : c.stage = .looping := Classical.byContradiction fun hn => hnb (i1.early hn)
    rcases i3 with ⟨i3, -⟩ | ⟨i3, -⟩
    · simp only [InInv, hloop] at i3
      exact .inr i3.1
    · simp only [OutInv, hloop] at i3
      exact .inl i3.1
  · unfold MainInv at i4
    split at i4
    · rw [i4]; exact ⟨[], .inl (List.nil_prefix)⟩
    · rcases i4 with i4 | ⟨e, i4⟩
      · rw [i4]; exact ⟨[], .inl (List.nil_prefix)⟩
      · rw [i4]; exact ⟨[], .inr ⟨e, ⟨_, rfl⟩⟩⟩
    · rcases i4 with i4 | ⟨e, i4⟩
      · rw [i4]; exact ⟨[], .inl (List.nil_prefix)⟩
      · rw [i4]; exact ⟨[], .inr ⟨e, ⟨_, rfl⟩⟩⟩
    · obtain ⟨e, i4 | ⟨e', i4⟩⟩ := i4
      · rw [i4]; exact ⟨e, .inl ⟨_, rfl⟩⟩
      · rw [i4]; exact ⟨e, .inr ⟨e', ⟨_, rfl⟩⟩⟩
    · obtain ⟨e, i4 | ⟨e', i4⟩⟩ := i4
      · rw [i4]; exact ⟨e, .inl ⟨_, rfl⟩⟩
      · rw [i4]; exact ⟨e, .inr ⟨e', ⟨_, rfl⟩⟩⟩
    · obtain ⟨e, i4 | ⟨e', i4⟩⟩ := i4
      · rw [i4]; exact ⟨e, .inl ⟨_, rfl⟩⟩
      · rw [i4]; exact ⟨e, .inr ⟨e', ⟨_, rfl⟩⟩⟩
    · obtain ⟨-, e, i4 | ⟨e', i4⟩⟩ := i4
      · rw [i4]; exact ⟨e, .inl ⟨[], rfl⟩⟩
      · rw [i4]; exact ⟨e, .inr ⟨e', ⟨[], rfl⟩⟩⟩
  · refine ⟨c.pings, ?_⟩
    have hn : .pingStart c.info.addr :: List.replicate c.pings (.pingSent c.info.addr) <+: pingStory c.info.addr c.info.str c.pings false :=
      ⟨[.pingEnd c.info.str], by simp [pingStory]⟩
    unfold PingInv at i5
    split at i5
    · rw [i5.1]; exact ⟨false, List.nil_prefix⟩
    · rw [i5.1]; exact ⟨false, hn⟩
    · exact ⟨false, List.IsPrefix.trans ⟨_, i5.1⟩ hn⟩
    · rw [i5.1]; exact ⟨false, hn⟩
    · rw [i5.1]; exact ⟨false, hn⟩
    · rw [i5.1]; exact ⟨true, [.pingSent c.info.addr, .pingEnd c.info.str], by simp [pingStory]⟩
    · obtain ⟨l, q, -⟩ := i5
      exact ⟨l, _, q⟩
    · obtain ⟨l, q, -⟩ := i5
      exact ⟨l, [], by rw [q, List.append_nil]⟩
  · unfold RecvInv at i6
    split at i6
    · exact .inl i6.1
    · obtain ⟨body, q, hb⟩ := i6
      exact .inr ⟨body, hb.only, [], by rw [q]; simp⟩
    · obtain ⟨body, q, hb⟩ := i6
      exact .inr ⟨body, hb.only, [.recvEnd c.info.str], by rw [q]; simp⟩
  · unfold ReqInv at i7
    split at i7
    · rw [i7]; exact List.nil_prefix
    · rw [i7]; exact ⟨_, rfl⟩
    · rw [i7]; exact ⟨_, rfl⟩
    · rw [i7]; exact ⟨[], rfl⟩
  · unfold ReaderInv at i8
    split at i8
    · rw [i8]; exact List.nil_prefix
    · rw [i8]; exact ⟨_, rfl⟩
    · rw [i8]; exact ⟨[], rfl⟩

theorem mem_said {σ : State} {i : Nat} {p : Part} {e : Entry} (h : part e = p) : e ∈ own σ i ↔ e ∈ said σ i p := by
  simp [said, h]

theorem buffers_said (es : List Entry) : buffers es = buffers (of .recv es) := by
  induction es with
  | nil => rfl
  | cons e es ih =>
    unfold buffers of at ih ⊢
    cases e <;> simp [part, ih]

theorem count_said {es : List Entry} {p : Part} {e : Entry} (h : part e = p) : es.count e = (of p es).count e := by
  unfold of
  rw [List.count_filter (by simp [h])]

/-- **C110**: what the log says of one connection is so.  A handshake and a bitfield were written to somebody who connected exactly if the log says so, and to nobody else does
it say that; for each buffer received there is one line, in the order of the buffers, with its length and the number of bytes that the messages found in it have on the wire, and these
messages are in the buffer in this order; and a bitfield was registered as many times as the log says, which is at most the number of bitfields received. -/
theorem C110_true (sp : Bool) (w : World) (o : Options) (id : Bytes) (readOk : Bool) (pc : Bytes) (fs fs' : FS.State) (st : Started) (es : List Entry)
    (h : Starts sp w o id readOk pc fs (.ok st) fs' es) (E : Env) (σ₀ σ : State) (h0 : Initial es σ₀) (hr : Reach (Step E) σ₀ σ) (i : Nat) (c : Conn) (hi : σ.conns[i]? = some c) :
    ((∃ r, .newClient r ∈ own σ i) → (c.hs = true ↔ .sentHandshake c.remote ∈ own σ i) ∧ (c.bf = true ↔ .sentBitfield c.remote ∈ own σ i)) ∧
    (∀ r, .sentHandshake r ∈ own σ i → c.hs = true ∧ r = c.remote) ∧ (∀ r, .sentBitfield r ∈ own σ i → c.bf = true ∧ r = c.remote) ∧
    buffers (own σ i) = c.got.map (fun g => ((stream (g.2.map P2P.Msg.view)).length, g.1.length)) ∧
    (∀ g ∈ c.got, (stream (g.2.map P2P.Msg.view)).Sublist g.1) ∧
    (own σ i).count .registered = c.regs ∧ c.regs ≤ (c.got.map fun g => bitfields g.2).sum := by
  obtain ⟨he, -⟩ := started_log h
  subst he
  have S := story_of (start := _) h0 start_texts hr hi
  have hrecv : buffers (of .recv (own σ i)) = c.got.map (fun g => ((stream (g.2.map P2P.Msg.view)).length, g.1.length)) ∧
      (∀ g ∈ c.got, (stream (g.2.map P2P.Msg.view)).Sublist g.1) ∧ (of .recv (own σ i)).count .registered = c.regs ∧ c.regs ≤ (c.got.map fun g => bitfields g.2).sum := by
    have i6 := S.recv
    unfold RecvInv at i6
    split at i6
    · obtain ⟨q1, q2, q3⟩ := i6
      rw [q1, q2, q3]
      simp [buffers]
    · obtain ⟨body, q, hb⟩ := i6
      rw [q]
      refine ⟨?_, hb.found, ?_, by have := hb.bitfields; omega⟩
      · rw [← hb.buffers]
        simp [buffers]
      · rw [← hb.regs]
        simp
    · obtain ⟨body, q, hb⟩ := i6
      rw [q]
      refine ⟨?_, hb.found, ?_, by have := hb.bitfields; omega⟩
      · rw [← hb.buffers]
        simp [buffers]
      · rw [← hb.regs]
        simp
  have hb := S.before
  rw [show of .before (own σ i) = said σ i .before from rfl] at hb
  refine ⟨?_, ?_, ?_, by rw [buffers_said]; exact hrecv.1, hrecv.2.1, by rw [count_said (p := .recv) rfl]; exact hrecv.2.2.1, hrecv.2.2.2⟩
  · rintro ⟨r, hm⟩
    rcases hb with ⟨hb, -⟩ | ⟨-, hb⟩
    · rw [mem_said (p := .before) rfl, mem_said (p := .before) rfl]
      unfold InInv at hb
      split at hb
      · exact hb.elim
      · obtain ⟨q1, q2, q3⟩ := hb
        simp [q1, q2, q3, greeting]
      · obtain ⟨q1, q2, q3⟩ := hb
        simp [q1, q2, q3, greeting]
      · obtain ⟨q1, q2, q3⟩ := hb
        simp [q1, q2, q3, greeting]
      · obtain ⟨k, e, k1, k2, k3, k4, k5⟩ := hb
        rw [k3, k4, k5]
        rcases (by omega : k = 1 ∨ k = 2 ∨ k = 3) with rfl | rfl | rfl <;> simp [greeting]
      · obtain ⟨q1, q2, q3⟩ := hb
        simp [q1, q2, q3, greeting]
    · exact absurd hm (hb r)
  · intro r hm
    rw [mem_said (p := .before) rfl] at hm
    rcases hb with ⟨hb, -⟩ | ⟨hb, -⟩
    · unfold InInv at hb
      split at hb
      · exact hb.elim
      · simp [hb.1, greeting] at hm
      · simp [hb.1, greeting] at hm
      · simp [hb.1, greeting] at hm
        exact ⟨hb.2.1, hm⟩
      · obtain ⟨k, e, k1, k2, k3, k4, k5⟩ := hb
        rw [k3] at hm
        rw [k4]
        rcases (by omega : k = 1 ∨ k = 2 ∨ k = 3) with rfl | rfl | rfl <;> simp [greeting] at hm ⊢
        exact hm
      · simp [hb.1, greeting] at hm
        exact ⟨hb.2.1, hm⟩
    · unfold OutInv at hb
      split at hb
      · simp [hb.1] at hm
      · obtain ⟨⟨e, q⟩, -⟩ := hb
        simp [q] at hm
      · simp [hb.1] at hm
      · exact hb.elim
  · intro r hm
    rw [mem_said (p := .before) rfl] at hm
    rcases hb with ⟨hb, -⟩ | ⟨hb, -⟩
    · unfold InInv at hb
      split at hb
      · exact hb.elim
      · simp [hb.1, greeting] at hm
      · simp [hb.1, greeting] at hm
      · simp [hb.1, greeting] at hm
      · obtain ⟨k, e, k1, k2, k3, k4, k5⟩ := hb
        rw [k3] at hm
        rcases (by omega : k = 1 ∨ k = 2 ∨ k = 3) with rfl | rfl | rfl <;> simp [greeting] at hm
      · simp [hb.1, greeting] at hm
        exact ⟨hb.2.2, hm⟩
    · unfold OutInv at hb
      split at hb
      · simp [hb.1] at hm
      · obtain ⟨⟨e, q⟩, -⟩ := hb
        simp [q] at hm
      · simp [hb.1] at hm
      · exact hb.elim

/-- **C110** (partial: as long as every keep-alive message could be written, see `C110_refuted_keepalive`).  Then there is one line for each, except that the line for the last one may
not be there yet.  At most one is lost; when `pingLoop` has ended there is one line more than keep-alive messages if one was lost, and then the log says so once. -/
theorem C110_keepalive_partial (sp : Bool) (w : World) (o : Options) (id : Bytes) (readOk : Bool) (pc : Bytes) (fs fs' : FS.State) (st : Started) (es : List Entry)
    (h : Starts sp w o id readOk pc fs (.ok st) fs' es) (E : Env) (σ₀ σ : State) (h0 : Initial es σ₀) (hr : Reach (Step E) σ₀ σ) (i : Nat) (c : Conn) (hi : σ.conns[i]? = some c) :
    c.lost ≤ 1 ∧
    (c.lost = 0 → (own σ i).count (.pingSent c.info.addr) + (if c.ping = .sent then 1 else 0) = c.pings ∧ .pingError c.info.addr ∉ own σ i) ∧
    (c.ping = .ended → (own σ i).count (.pingSent c.info.addr) = c.pings + c.lost ∧ (own σ i).count (.pingError c.info.addr) = c.lost) := by
  obtain ⟨he, -⟩ := started_log h
  subst he
  have S := story_of (start := _) h0 start_texts hr hi
  have i5 := S.ping
  rw [mem_said (p := .ping) rfl, count_said (p := .ping) rfl, count_said (p := .ping) rfl (e := .pingError c.info.addr)]
  rw [show said σ i .ping = of .ping (own σ i) from rfl]
  generalize of .ping (own σ i) = P at i5
  unfold PingInv at i5
  cases hp : c.ping <;> simp only [hp] at i5 <;> simp only [reduceCtorEq, if_false, if_true, false_implies, and_true, true_implies, Nat.add_zero]
  case notStarted =>
    obtain ⟨rfl, q1, q2⟩ := i5
    simp [q1, q2]
  case run =>
    obtain ⟨rfl, q2⟩ := i5
    simp [q2, List.mem_replicate, List.count_replicate_self]
  case sent =>
    obtain ⟨q1, q2, q3⟩ := i5
    have hc := congrArg (List.count (.pingSent c.info.addr)) q1
    rw [List.count_append, List.count_singleton_self, List.count_cons, List.count_replicate_self] at hc
    refine ⟨by omega, fun _ => ⟨by simpa using hc, fun hm => ?_⟩⟩
    have := List.mem_append_left [.pingSent c.info.addr] hm
    rw [q1] at this
    simp [List.mem_replicate] at this
  case fail e => exact ⟨by omega, fun hl => by omega⟩
  case told => exact ⟨by omega, fun hl => by omega⟩
  case failed => exact ⟨by omega, fun hl => by omega⟩
  case ending =>
    obtain ⟨l, q1, q2⟩ := i5
    refine ⟨by rw [q2]; cases l <;> decide, fun hl => ?_⟩
    rw [hl] at q2
    cases l with
    | true => cases q2
    | false =>
      have hc := congrArg (List.count (.pingSent c.info.addr)) q1
      rw [List.count_append] at hc
      refine ⟨by simpa [pingStory, List.count_cons, List.count_replicate_self] using hc, fun hm => ?_⟩
      have := List.mem_append_left [.pingEnd c.info.str] hm
      rw [q1] at this
      simp [pingStory, List.mem_replicate] at this
  case ended =>
    obtain ⟨l, rfl, q2⟩ := i5
    rw [q2]
    cases l <;> simp [pingStory, List.mem_replicate, List.count_replicate_self, List.count_replicate]

/-- **C110**: what the log of a start says about our pieces is so: the numbers are how many pieces on the disk have the recorded hash, and how many there are. -/
theorem C110_start (w : World) (o : Options) (id : Bytes) (readOk : Bool) (pc : Bytes) (fs fs' : FS.State) (st : Started) (es : List Entry)
    (h : Starts false w o id readOk pc fs (.ok st) fs' es) (hs : Sensible st.tor.info) (hn : st.tor.info.numPieces < 2 ^ 32) :
    es = [.reading o.input, .opening,
      .has (count (fun i => decide (w.H (pieceOf (prepAll st.tor.info fs).flatten st.tor.info.pieceLen.toNat i) = range st.tor.info.hashes (20 * i) 20)) st.tor.info.numPieces)
        st.tor.info.numPieces pc, .asking st.tor.announce] := by
  rw [(started_log h).1]
  obtain ⟨-, -, -, h4, -, h6, h7, -⟩ := C71_started w o id readOk fs fs' st ((C109_starts_iff _ _ _ _ _ pc _ _ _).mpr ⟨es, h⟩) hs hn
  obtain ⟨hx, -⟩ := Bf.C18_counter_exact_partial _ h6.bf
  have hnb := h6.nbits
  rw [h7] at hnb
  rw [hx, hnb, Int.toNat_natCast]
  congr 4
  refine congrArg (fun k : Nat => (k : Int)) (Bf.count_congr fun i hi => ?_)
  have := h4 i hi
  rw [Bf.get_nat] at this
  split at this
  · exact Res.ok.inj this
  · cases this

/-! ### what it does not tell -/

/-- **C110** is refuted for the keep-alive messages: "sent keep alive" is said although none was ever written, to anybody whom we call and whatever happened before. -/
theorem C110_refuted_keepalive (E : Env) (σ : State) (id : Bytes) (ip : IP) (port : UInt16) (e : Bytes) :
    ∃ σ' c, Reach (Step E) σ σ' ∧ σ'.conns = σ.conns ++ [c] ∧ c.info = MakePeer E.v6 id ip port ∧ c.pings = 0 ∧ .pingSent c.info.addr ∈ own σ' σ.conns.length := by
  have s0 : Reach (Step E) σ ⟨σ.conns ++ [outgoing E (MakePeer E.v6 id ip port)], σ.open, σ.log⟩ := .tail _ _ .refl (.call id ip port)
  have s1 := go_on s0 (.dialled rfl) aTime
  have s2 := go_on s1 (.unchoke rfl rfl) aTime
  have s3 := go_on s2 (.pingStart (by simp) rfl) aTime
  have s4 := go_on s3 (.pingFail e rfl) aTime
  have s5 := go_on s4 (.pingReport e rfl rfl) aTime
  have s6 := go_on s5 (.pingSaysError rfl) aTime
  have s7 := go_on s6 (.pingSaysLost rfl) aTime
  exact ⟨_, _, s7, rfl, rfl, rfl, by simp [own, outgoing]⟩

/-- a keep-alive that failed when nobody listens any more -/
def Unheard (σ : State) (i : Nat) : Prop := ∃ c e, σ.conns[i]? = some c ∧ c.ping = .fail e ∧ c.main = .kill ∧ c.recv = .ended

theorem unheard_step {E : Env} {σ σ' : State} {i : Nat} (hs : Step E σ σ') (h : Unheard σ i) : Unheard σ' i := by
  obtain ⟨c, e, h1, h2, h3, h4⟩ := h
  have hlt : i < σ.conns.length := (List.getElem?_eq_some_iff.mp h1).1
  cases hs with
  | listen => exact ⟨c, e, h1, h2, h3, h4⟩
  | call => exact ⟨c, e, by rw [List.getElem?_append_left hlt]; exact h1, h2, h3, h4⟩
  | accept => exact ⟨c, e, by rw [List.getElem?_append_left hlt]; exact h1, h2, h3, h4⟩
  | work j t d d' es hj hw =>
    by_cases hji : j = i
    · subst hji
      rw [h1] at hj
      cases hj
      refine ⟨d', e, by simp [hlt], ?_⟩
      cases hw <;> simp_all
    · exact ⟨c, e, by rw [List.getElem?_set_ne hji]; exact h1, h2, h3, h4⟩

theorem unheard_run {E : Env} {σ σ' : State} {i : Nat} (hr : Reach (Step E) σ σ') (h : Unheard σ i) : Unheard σ' i := by
  induction hr with
  | refl => exact h
  | tail _ _ _ hs ih => exact unheard_step hs ih

/-- **C110** is refuted for the keep-alive messages in the other direction: one that could not be written need never be spoken of.  If reading fails in the same moment, then nobody
hears of the keep-alive, and from then on, whatever happens, `pingLoop` says neither that it failed nor that it ends. -/
theorem C110_refuted_lost (sp : Bool) (w : World) (o : Options) (id : Bytes) (readOk : Bool) (pc : Bytes) (fs fs' : FS.State) (st : Started) (es : List Entry)
    (h : Starts sp w o id readOk pc fs (.ok st) fs' es) (E : Env) (σ₀ σ : State) (h0 : Initial es σ₀) (hr : Reach (Step E) σ₀ σ) (pid : Bytes) (ip : IP) (port : UInt16) (e e' : Bytes) :
    ∃ σ', Reach (Step E) σ σ' ∧ ∀ σ'', Reach (Step E) σ' σ'' →
      ∃ c, σ''.conns[σ.conns.length]? = some c ∧ c.lost = 1 ∧ (∀ a, .pingError a ∉ own σ'' σ.conns.length) ∧ ∀ s, .pingEnd s ∉ own σ'' σ.conns.length := by
  have s0 : Reach (Step E) σ ⟨σ.conns ++ [outgoing E (MakePeer E.v6 pid ip port)], σ.open, σ.log⟩ := .tail _ _ .refl (.call pid ip port)
  have s1 := go_on s0 (.dialled rfl) aTime
  have s2 := go_on s1 (.unchoke rfl rfl) aTime
  have s3 := go_on s2 (.pingStart (by simp) rfl) aTime
  have s4 := go_on s3 (.recvStart (by simp) rfl) aTime
  have s5 := go_on s4 (.pingFail e rfl) aTime
  have s6 := go_on s5 (.recvFail e' rfl) aTime
  have s7 := go_on s6 (.recvReport e' rfl rfl) aTime
  have s8 := go_on s7 (.says e' rfl) aTime
  have s9 := go_on s8 (.recvEnd rfl) aTime
  refine ⟨_, s9, fun σ'' hr'' => ?_⟩
  have hu : Unheard σ'' σ.conns.length := by
    exact unheard_run hr'' ⟨_, e, by simp; rfl, rfl, rfl, rfl⟩
  obtain ⟨c, e1, h1, h2, -, -⟩ := hu
  obtain ⟨he, -⟩ := started_log h
  subst he
  have S := story_of (start := _) h0 start_texts (Reach.trans hr (Reach.trans s9 hr'')) h1
  have i5 := S.ping
  simp only [PingInv, h2] at i5
  have hsaid : said σ'' σ.conns.length .ping = _ := i5.1
  refine ⟨c, h1, i5.2, fun a hm => ?_, fun s hm => ?_⟩
  · rw [mem_said (p := .ping) rfl, hsaid] at hm
    simp [List.mem_replicate] at hm
  · rw [mem_said (p := .ping) rfl, hsaid] at hm
    simp [List.mem_replicate] at hm

/-- **C110** is refuted for the end of a connection: as nobody receives from `ph.chErr`, "peer … done" is never said, of nobody. -/
theorem C110_refuted_done (sp : Bool) (w : World) (o : Options) (id : Bytes) (readOk : Bool) (pc : Bytes) (fs fs' : FS.State) (st : Started) (es : List Entry)
    (h : Starts sp w o id readOk pc fs (.ok st) fs' es) (E : Env) (hE : E.heard = false) (σ₀ σ : State) (h0 : Initial es σ₀) (hr : Reach (Step E) σ₀ σ) :
    ∀ l ∈ σ.log, ∀ a, l.entry ≠ .done a := by
  obtain ⟨he, -⟩ := started_log h
  subst he
  induction hr with
  | refl =>
    intro l hl a ha
    have := List.mem_map_of_mem (f := Line.entry) hl
    rw [h0.2.2.1, ha] at this
    simp at this
  | tail _ _ _ hs ih =>
    intro l hl a ha
    cases hs with
    | listen | accept =>
      rcases List.mem_append.mp hl with hl | hl
      · exact ih l hl a ha
      · rw [List.mem_singleton.mp hl] at ha
        cases ha
    | call => exact ih l hl a ha
    | work j t d d' es' hj hw =>
      rcases List.mem_append.mp hl with hl | hl
      · exact ih l hl a ha
      · obtain ⟨e, he, rfl⟩ := List.mem_map.mp hl
        cases ha
        cases hw <;> simp_all

/-- **C110** is refuted for the line "killing …": behind it any number of keep-alive messages can still be written. -/
theorem C110_refuted_killed (E : Env) (σ : State) (id : Bytes) (ip : IP) (port : UInt16) (e : Bytes) (n : Nat) :
    ∃ σ₁ σ₂ c₁ c₂ L, Reach (Step E) σ σ₁ ∧ Reach (Step E) σ₁ σ₂ ∧ σ₁.conns = σ.conns ++ [c₁] ∧ σ₂.conns = σ.conns ++ [c₂] ∧
      σ₁.log = L ++ [⟨aTime, some σ.conns.length, .killing (MakePeer E.v6 id ip port).str e⟩] ∧ c₁.pings = 0 ∧ c₂.pings = n := by
  have s0 : Reach (Step E) σ ⟨σ.conns ++ [outgoing E (MakePeer E.v6 id ip port)], σ.open, σ.log⟩ := .tail _ _ .refl (.call id ip port)
  have s1 := go_on s0 (.dialled rfl) aTime
  have s2 := go_on s1 (.unchoke rfl rfl) aTime
  have s3 := go_on s2 (.pingStart (by simp) rfl) aTime
  have s4 := go_on s3 (.recvStart (by simp) rfl) aTime
  have s5 := go_on s4 (.recvFail e rfl) aTime
  have s6 := go_on s5 (.recvReport e rfl rfl) aTime
  have s7 := go_on s6 (.says e rfl) aTime
  have more : ∀ (m : Nat) (c : Conn) (L : List Line), c.ping = .run →
      ∃ c₂ L₂, Reach (Step E) ⟨σ.conns ++ [c], σ.open, L⟩ ⟨σ.conns ++ [c₂], σ.open, L₂⟩ ∧ c₂.pings = c.pings + m := by
    intro m
    induction m with
    | zero => exact fun c L _ => ⟨c, L, .refl, rfl⟩
    | succ m ih =>
      intro c L hp
      have t1 := go_on (.refl (s := (⟨σ.conns ++ [c], σ.open, L⟩ : State))) (.pingWrite hp) aTime (E := E)
      have t2 := go_on t1 (.pingSays rfl) aTime
      refine Exists.elim (ih _ _ ?_) fun c₂ ⟨L₂, t3, t4⟩ => ⟨c₂, L₂, Reach.trans t2 t3, t4.trans ?_⟩
      · rfl
      · show c.pings + 1 + m = _
        omega
  refine Exists.elim (more n _ _ ?_) fun c₂ ⟨L₂, t3, t4⟩ => ⟨_, _, _, c₂, _, s7, t3, rfl, rfl, rfl, rfl, t4.trans (Nat.zero_add n)⟩
  rfl

theorem go_at {E : Env} {σ : State} {i : Nat} {c c' : Conn} {es : List Entry} (hi : σ.conns[i]? = some c) (hs : CStep E c es c') :
    ∃ σ', Reach (Step E) σ σ' ∧ σ'.conns[i]? = some c' ∧ own σ' i = own σ i ++ es := by
  refine ⟨_, .single (.work i aTime c c' es hi hs), ?_, ?_⟩
  · have hlt : i < σ.conns.length := (List.getElem?_eq_some_iff.mp hi).1
    simp [hlt]
  · simp [own, List.filter_append, List.filter_map, Function.comp_def]

/-- the messages that hold a bitfield -/
def bitfields (ms : List P2P.Msg) : Nat := ms.countP fun m => match m with | .bitfield _ _ => true | _ => false

theorem handle_all {E : Env} {i : Nat} : ∀ (ms : List P2P.Msg) (σ : State) (c : Conn), σ.conns[i]? = some c → c.recv = .busy ms →
    ∃ σ' c', Reach (Step E) σ σ' ∧ σ'.conns[i]? = some c' ∧ c'.recv = .run ∧ c'.got = c.got ∧ c'.regs = c.regs + bitfields ms ∧ own σ' i = own σ i ++ List.replicate (bitfields ms) .registered
  | [], σ, c, hi, h => by
    obtain ⟨σ', r, h1, h2⟩ := go_at (E := E) hi (.handled h)
    exact ⟨σ', _, r, h1, rfl, rfl, rfl, by rw [h2]; rfl⟩
  | m :: ms, σ, c, hi, h => by
    by_cases hb : ∃ n b, m = .bitfield n b
    · obtain ⟨n, b, rfl⟩ := hb
      obtain ⟨σ1, r1, h1, h2⟩ := go_at (E := E) hi (.registers n b ms h)
      obtain ⟨σ', c', r', g1, g2, g3, g4, g5⟩ := handle_all ms σ1 _ h1 rfl
      have e : bitfields (.bitfield n b :: ms) = bitfields ms + 1 := by simp [bitfields]
      refine ⟨σ', c', r1.trans r', g1, g2, g3, by rw [g4, e]; show c.regs + 1 + _ = _; omega, ?_⟩
      rw [g5, h2, e, List.replicate_succ, List.append_assoc]
      rfl
    · have hb' : ∀ n b, m ≠ .bitfield n b := fun n b e => hb ⟨n, b, e⟩
      obtain ⟨σ1, r1, h1, h2⟩ := go_at (E := E) hi (.handles m ms h hb')
      obtain ⟨σ', c', r', g1, g2, g3, g4, g5⟩ := handle_all ms σ1 _ h1 rfl
      have e : bitfields (m :: ms) = bitfields ms := by
        cases m <;> first | rfl | exact absurd rfl (hb' _ _)
      refine ⟨σ', c', r1.trans r', g1, g2, g3, by rw [g4, e], ?_⟩
      rw [g5, h2, e, List.append_nil]

/-- **C110**: what can come of a buffer: one line about its bytes, and one line for each bitfield in it, in this order; then the next buffer can come. -/
theorem C110_buffer (E : Env) (σ : State) (i : Nat) (c : Conn) (hi : σ.conns[i]? = some c) (h : c.recv = .run) (buf pc : Bytes) (fuel : Nat) (dar : DecodeAllResult)
    (hd : DecodeAll fuel buf = .ok dar) :
    ∃ σ' c', Reach (Step E) σ σ' ∧ σ'.conns[i]? = some c' ∧ c'.recv = .run ∧ c'.got = c.got ++ [(buf, dar.msgs)] ∧ c'.regs = c.regs + bitfields dar.msgs ∧
      own σ' i = own σ i ++ .decoded dar.read buf.length pc c.info.addr :: List.replicate (bitfields dar.msgs) .registered := by
  obtain ⟨σ1, r1, h1, h2⟩ := go_at (E := E) hi (.receive buf pc fuel dar h hd)
  obtain ⟨σ', c', r', g1, g2, g3, g4, g5⟩ := handle_all dar.msgs σ1 _ h1 rfl
  exact ⟨σ', c', r1.trans r', g1, g2, g3, g4, by rw [g5, h2, List.append_assoc]; rfl⟩

/-- **C110**: what requestLoop says when it has started: if all pieces are there, that it ends; and if not, nothing. -/
theorem C110_requests (E : Env) (σ : State) (i : Nat) (c : Conn) (hi : σ.conns[i]? = some c) (h : c.req = .run) :
    ∃ σ' c', Reach (Step E) σ σ' ∧ σ'.conns[i]? = some c' ∧
      ((E.complete = true ∧ c'.req = .ended ∧ own σ' i = own σ i ++ [.reqEnd c.info.str]) ∨ (E.complete = false ∧ c'.req = .creating ∧ own σ' i = own σ i)) := by
  cases hc : E.complete with
  | true =>
    obtain ⟨σ1, r1, h1, h2⟩ := go_at (E := E) hi (.reqEnd h hc)
    exact ⟨σ1, _, r1, h1, .inl ⟨rfl, rfl, h2⟩⟩
  | false =>
    obtain ⟨σ1, r1, h1, h2⟩ := go_at (E := E) hi (.reqCreate h hc)
    exact ⟨σ1, _, r1, h1, .inr ⟨rfl, rfl, by rw [h2, List.append_nil]⟩⟩

/-- a connection of which nothing will be said any more -/
def Gone (σ : State) (i : Nat) : Prop :=
  ∃ c, σ.conns[i]? = some c ∧ c.stage = .gone ∧ c.main = .begin ∧ c.ping = .notStarted ∧ c.recv = .notStarted ∧ c.req = .notStarted ∧ c.reader = .notStarted

theorem gone_step {E : Env} {σ σ' : State} {i : Nat} (hs : Step E σ σ') (h : Gone σ i) : Gone σ' i ∧ own σ' i = own σ i := by
  obtain ⟨c, hi, h1, h2, h3, h4, h5, h6⟩ := h
  have hlt : i < σ.conns.length := (List.getElem?_eq_some_iff.mp hi).1
  cases hs with
  | listen => exact ⟨⟨c, hi, h1, h2, h3, h4, h5, h6⟩, by simp [own]⟩
  | call => exact ⟨⟨c, by simp [List.getElem?_append_left hlt, hi], h1, h2, h3, h4, h5, h6⟩, rfl⟩
  | accept => exact ⟨⟨c, by simp [List.getElem?_append_left hlt, hi], h1, h2, h3, h4, h5, h6⟩, by simp [own]; omega⟩
  | work j t d d' es hj hw =>
    by_cases e : j = i
    · subst e
      cases hj.symm.trans hi
      cases hw <;> simp_all
    · refine ⟨⟨c, by simp [List.getElem?_set_ne e, hi], h1, h2, h3, h4, h5, h6⟩, ?_⟩
      have : (es.filter fun _ => decide (j = i)) = [] := by simp [e]
      simp [own, List.filter_append, List.filter_map, Function.comp_def, e]

/-- **C110**: whoever connects and sends something that is not a handshake for the torrent is said to be a bad peer, and there is nothing more to this connection. -/
theorem C110_refuses (E : Env) (σ : State) (ho : σ.open = true) (ip : IP) (port : UInt16) (d : Bytes) (hd : ∀ id, ¬ HandshakeSpec.IsHandshake (readBuf d) E.infohash id) :
    ∃ σ' c, Reach (Step E) σ σ' ∧ σ'.conns = σ.conns ++ [c] ∧
      σ'.log = σ.log ++ [⟨aTime, some σ.conns.length, .newClient (E.remote ip port)⟩, ⟨aTime, some σ.conns.length, .refused (ascii "bad peer handshake")⟩] ∧
      ∀ σ'', Reach (Step E) σ' σ'' → own σ'' σ.conns.length = own σ' σ.conns.length := by
  have hv : ValidHandshake (readBuf d) E.infohash = false := by
    cases hv : ValidHandshake (readBuf d) E.infohash with
    | false => rfl
    | true => exact absurd ((C40_valid_iff _ _).mp hv) (fun ⟨id, h⟩ => hd id h)
  have s0 : Reach (Step E) σ ⟨σ.conns ++ [accepted E ip port], σ.open, σ.log ++ [⟨aTime, some σ.conns.length, .newClient (E.remote ip port)⟩]⟩ := .tail _ _ .refl (.accept aTime ip port ho)
  have s1 := go_on s0 (.badHandshake ip port d rfl hv) aTime
  refine ⟨_, _, s1, rfl, by simp, fun σ'' hr => ?_⟩
  refine (Reach.keep (Q := fun s => Gone s σ.conns.length ∧ own s σ.conns.length = _) (fun a b ha hs => ⟨(gone_step hs ha.1).1, (gone_step hs ha.1).2.trans ha.2⟩) hr ⟨?_, rfl⟩).2
  exact ⟨{ accepted E ip port with stage := .gone }, by simp, rfl, rfl, rfl, rfl, rfl, rfl⟩

/-! ### examples -/

/-- the hypotheses of `C110_story`, `C110_true`, `C110_keepalive_partial`, `C110_refuted_lost` and `C110_refuted_done`: a program that has started, somebody who connected and is listened
to; the greeting is complete -/
example : ∃ st fs' es, Starts false exWorld exOptions (List.replicate 20 65) true (ascii "0") exDisk (.ok st) fs' es ∧ Initial es (exLog es) ∧ exEnv.heard = false ∧
    ∃ σ c, Reach (Step exEnv) (exLog es) σ ∧ σ.conns[0]? = some c ∧ said σ 0 .before = greeting (ascii "10.0.0.7:80") ∧
      said σ 0 .recv = [.recvStart (ascii "-GT0001-abcdefghijkl @ 10.0.0.7:80")] := by
  obtain ⟨st, fs', h, -⟩ := ex_starts
  obtain ⟨es, h⟩ := (C109_starts_iff _ _ _ _ _ (ascii "0") _ _ _).mp h
  have s0 : Reach (Step exEnv) (exLog es) _ := .tail _ _ .refl (.listen aTime 7000 rfl)
  obtain ⟨c, h1, h2⟩ := connected exEnv (by decide) { exLog es with «open» := true, log := (exLog es).log ++ [⟨aTime, none, .listening 7000⟩] } rfl
    (ascii "-GT0001-abcdefghijkl") (by decide) [10, 0, 0, 7] 80
  have hr := Reach.trans s0 h2
  refine ⟨st, fs', es, h, exLog_initial es, rfl, _, c, hr, rfl, ?_, ?_⟩
  · simp [said, own, exLog, part, greeting, exEnv, List.filter_map, Function.comp_def]
  · have hstr : (MakePeer (fun _ => ascii "v6") (ascii "-GT0001-abcdefghijkl") [10, 0, 0, 7] 80).str = ascii "-GT0001-abcdefghijkl @ 10.0.0.7:80" := by decide +kernel
    simp [said, own, exLog, part, exEnv, List.filter_map, Function.comp_def, hstr]

/-- if somebody received from `ph.chErr`, then the end of a connection would be spoken of -/
example : ∃ σ, Reach (Step { exEnv with heard := true }) ⟨[], true, []⟩ σ ∧ .done (ascii "10.0.0.7:80") ∈ own σ 0 := by
  have s0 : Reach (Step { exEnv with heard := true }) ⟨[], true, []⟩ _ := .tail _ _ .refl (.call (ascii "-GT0001-abcdefghijkl") [10, 0, 0, 7] 80)
  have s1 := go_on s0 (.dialled rfl) aTime
  have s2 := go_on s1 (.unchoke rfl rfl) aTime
  have s3 := go_on s2 (.recvStart (by simp) rfl) aTime
  have s4 := go_on s3 (.pingStart (by simp) rfl) aTime
  have s5 := go_on s4 (.recvFail (ascii "EOF") rfl) aTime
  have s6 := go_on s5 (.recvReport (ascii "EOF") rfl rfl) aTime
  have s7 := go_on s6 (.says (ascii "EOF") rfl) aTime
  have s8 := go_on s7 (.killPing rfl rfl) aTime
  have s9 := go_on s8 (.recvEnd rfl) aTime
  have s10 := go_on s9 (.pingEnd rfl) aTime
  have s11 := go_on s10 (.waited rfl rfl) aTime
  have s12 := go_on s11 (.report rfl rfl) aTime
  refine ⟨_, s12, ?_⟩
  simp only [own, List.filter_append, List.map_append, List.mem_append]
  exact .inr (by decide +kernel)

/-- the hypotheses of `C110_start` -/
example : ∃ st fs' es, Starts false exWorld exOptions (List.replicate 20 65) true (ascii "0") exDisk (.ok st) fs' es ∧ Sensible st.tor.info ∧ st.tor.info.numPieces < 2 ^ 32 := by
  obtain ⟨st, fs', h, hs, hn, -⟩ := ex_starts
  obtain ⟨es, h⟩ := (C109_starts_iff _ _ _ _ _ (ascii "0") _ _ _).mp h
  exact ⟨st, fs', es, h, hs, by omega⟩

/-- the story of a `pingLoop` that lost its second message, and what buffers are spoken of -/
example : pingStory (ascii "a") (ascii "b @ a") 1 true = [.pingStart (ascii "a"), .pingSent (ascii "a"), .pingError (ascii "a"), .pingSent (ascii "a"), .pingEnd (ascii "b @ a")] ∧
    buffers [.recvStart [], .decoded 5 7 [] [], .registered, .decoded 0 2 [] []] = [(5, 7), (0, 2)] := by decide

/-- the hypotheses of `C110_buffer` and `C110_requests`: somebody was called and is listened to; a buffer with a bitfield and an interested message comes -/
example : ∃ σ c dar, Reach (Step exEnv) ⟨[], true, []⟩ σ ∧ σ.conns[0]? = some c ∧ c.recv = .run ∧ c.req = .run ∧
    DecodeAll 20 [0, 0, 0, 2, 5, 0x80, 0, 0, 0, 1, 2] = .ok dar ∧ dar.read = 11 ∧ bitfields dar.msgs = 1 ∧ dar.msgs.length = 2 := by
  have s0 : Reach (Step exEnv) ⟨[], true, []⟩ _ := .tail _ _ .refl (.call (ascii "-GT0001-abcdefghijkl") [10, 0, 0, 7] 80)
  have s1 := go_on s0 (.dialled rfl) aTime
  have s2 := go_on s1 (.unchoke rfl rfl) aTime
  have s3 := go_on s2 (.recvStart (by simp) rfl) aTime
  have s4 := go_on s3 (.reqStart (by simp) rfl) aTime
  have hd : (match DecodeAll 20 [0, 0, 0, 2, 5, 0x80, 0, 0, 0, 1, 2] with | .ok d => d.read == 11 && bitfields d.msgs == 1 && d.msgs.length == 2 | _ => false) = true := by decide +kernel
  cases e : DecodeAll 20 [0, 0, 0, 2, 5, 0x80, 0, 0, 0, 1, 2] with
  | ok dar =>
    rw [e] at hd
    simp only [Bool.and_eq_true, beq_iff_eq] at hd
    exact ⟨_, _, dar, s4, rfl, rfl, rfl, rfl, hd.1.1, hd.1.2, hd.2⟩
  | _ => rw [e] at hd; cases hd

/-- the hypotheses of `C110_refuses`: a request of a browser -/
example : ∀ id, ¬ HandshakeSpec.IsHandshake (readBuf (ascii "GET / HTTP/1.1")) exEnv.infohash id := by
  intro id h
  exact absurd ((C40_valid_iff _ _).mpr ⟨id, h⟩) (by decide +kernel)

end Verif.Log
